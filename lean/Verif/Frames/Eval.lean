import Verif.Frames.Lemmas

/-!
# Evaluation of the constructors: which argument carries which setting
-/

namespace Machin.Frames

open Machin

variable {V : Type}

/-- The values of the arguments that are to carry settings. -/
def args (al : Algo) (ns : List Key) (fr : Frame V) : List (Key × Option (Val V)) × List (Key × Option (Val V)) :=
  ((handed al).map fun k => (k, fr.attrs.lookup k), ns.map fun k => (k, fr.attrs.lookup k))

def wanted (al : Algo) (g : Key → V) (ddp ppo : Bool) : List (Key × Option (Val V)) × List (Key × Option (Val V)) :=
  ((handed al).map fun k => (k, some (.conf (g k))), (built al g ddp ppo).map fun x => (x.1, some x.2))

/-- The names of the built arguments. -/
def builtNames (al : Algo) (g : Key → V) : List Key := (built al g false false).map Prod.fst

/-- The list of arguments with every plain value of a generated key replaced by the setting of this name. -/
def fix (al : Algo) (g : Key → V) (x : Key × Val V) : Key × Val V :=
  if x.1 ∈ al.keys then (match x.2 with | .conf _ => (x.1, .conf (g x.1)) | v => (x.1, v)) else x

set_option maxRecDepth 100000 in
theorem args_dqn (env : Env V) (g : Key → V) (extra : Key → Option V) :
    (init .dqn env (arity .dqn) (conf .dqn g extra)).map (args .dqn (builtNames .dqn g)) = .ok (wanted .dqn g false false) := by cbv

set_option maxRecDepth 100000 in
theorem fix_dqn (env : Env V) (g : Key → V) (extra : Key → Option V) :
    (init .dqn env (arity .dqn) (conf .dqn g extra)).map (fun fr => fr.attrs.map (fix .dqn g)) =
    (init .dqn env (arity .dqn) (conf .dqn g extra)).map (fun fr => fr.attrs) := by cbv

set_option maxRecDepth 100000 in
theorem args_dqnPer (env : Env V) (g : Key → V) (extra : Key → Option V) :
    (init .dqnPer env (arity .dqnPer) (conf .dqnPer g extra)).map (args .dqnPer (builtNames .dqnPer g)) = .ok (wanted .dqnPer g false false) := by cbv

set_option maxRecDepth 100000 in
theorem fix_dqnPer (env : Env V) (g : Key → V) (extra : Key → Option V) :
    (init .dqnPer env (arity .dqnPer) (conf .dqnPer g extra)).map (fun fr => fr.attrs.map (fix .dqnPer g)) =
    (init .dqnPer env (arity .dqnPer) (conf .dqnPer g extra)).map (fun fr => fr.attrs) := by cbv

set_option maxRecDepth 100000 in
theorem args_rainbow (env : Env V) (g : Key → V) (extra : Key → Option V) :
    (init .rainbow env (arity .rainbow) (conf .rainbow g extra)).map (args .rainbow (builtNames .rainbow g)) = .ok (wanted .rainbow g false false) := by cbv

set_option maxRecDepth 100000 in
theorem fix_rainbow (env : Env V) (g : Key → V) (extra : Key → Option V) :
    (init .rainbow env (arity .rainbow) (conf .rainbow g extra)).map (fun fr => fr.attrs.map (fix .rainbow g)) =
    (init .rainbow env (arity .rainbow) (conf .rainbow g extra)).map (fun fr => fr.attrs) := by cbv

set_option maxRecDepth 100000 in
theorem args_ddpg (env : Env V) (g : Key → V) (extra : Key → Option V) :
    (init .ddpg env (arity .ddpg) (conf .ddpg g extra)).map (args .ddpg (builtNames .ddpg g)) = .ok (wanted .ddpg g false false) := by cbv

set_option maxRecDepth 100000 in
theorem fix_ddpg (env : Env V) (g : Key → V) (extra : Key → Option V) :
    (init .ddpg env (arity .ddpg) (conf .ddpg g extra)).map (fun fr => fr.attrs.map (fix .ddpg g)) =
    (init .ddpg env (arity .ddpg) (conf .ddpg g extra)).map (fun fr => fr.attrs) := by cbv

set_option maxRecDepth 100000 in
theorem args_hddpg (env : Env V) (g : Key → V) (extra : Key → Option V) :
    (init .hddpg env (arity .hddpg) (conf .hddpg g extra)).map (args .hddpg (builtNames .hddpg g)) = .ok (wanted .hddpg g false false) := by cbv

set_option maxRecDepth 100000 in
theorem fix_hddpg (env : Env V) (g : Key → V) (extra : Key → Option V) :
    (init .hddpg env (arity .hddpg) (conf .hddpg g extra)).map (fun fr => fr.attrs.map (fix .hddpg g)) =
    (init .hddpg env (arity .hddpg) (conf .hddpg g extra)).map (fun fr => fr.attrs) := by cbv

set_option maxRecDepth 100000 in
theorem args_td3 (env : Env V) (g : Key → V) (extra : Key → Option V) :
    (init .td3 env (arity .td3) (conf .td3 g extra)).map (args .td3 (builtNames .td3 g)) = .ok (wanted .td3 g false false) := by cbv

set_option maxRecDepth 100000 in
theorem fix_td3 (env : Env V) (g : Key → V) (extra : Key → Option V) :
    (init .td3 env (arity .td3) (conf .td3 g extra)).map (fun fr => fr.attrs.map (fix .td3 g)) =
    (init .td3 env (arity .td3) (conf .td3 g extra)).map (fun fr => fr.attrs) := by cbv

set_option maxRecDepth 100000 in
theorem args_ddpgPer (env : Env V) (g : Key → V) (extra : Key → Option V) :
    (init .ddpgPer env (arity .ddpgPer) (conf .ddpgPer g extra)).map (args .ddpgPer (builtNames .ddpgPer g)) = .ok (wanted .ddpgPer g false false) := by cbv

set_option maxRecDepth 100000 in
theorem fix_ddpgPer (env : Env V) (g : Key → V) (extra : Key → Option V) :
    (init .ddpgPer env (arity .ddpgPer) (conf .ddpgPer g extra)).map (fun fr => fr.attrs.map (fix .ddpgPer g)) =
    (init .ddpgPer env (arity .ddpgPer) (conf .ddpgPer g extra)).map (fun fr => fr.attrs) := by cbv

set_option maxRecDepth 100000 in
theorem args_a2c (env : Env V) (g : Key → V) (extra : Key → Option V) :
    (init .a2c env (arity .a2c) (conf .a2c g extra)).map (args .a2c (builtNames .a2c g)) = .ok (wanted .a2c g false false) := by cbv

set_option maxRecDepth 100000 in
theorem fix_a2c (env : Env V) (g : Key → V) (extra : Key → Option V) :
    (init .a2c env (arity .a2c) (conf .a2c g extra)).map (fun fr => fr.attrs.map (fix .a2c g)) =
    (init .a2c env (arity .a2c) (conf .a2c g extra)).map (fun fr => fr.attrs) := by cbv

set_option maxRecDepth 100000 in
theorem args_a3c (env : Env V) (g : Key → V) (extra : Key → Option V) :
    (init .a3c env (arity .a3c) (conf .a3c g extra)).map (args .a3c (builtNames .a3c g)) = .ok (wanted .a3c g false false) := by cbv

set_option maxRecDepth 100000 in
theorem fix_a3c (env : Env V) (g : Key → V) (extra : Key → Option V) :
    (init .a3c env (arity .a3c) (conf .a3c g extra)).map (fun fr => fr.attrs.map (fix .a3c g)) =
    (init .a3c env (arity .a3c) (conf .a3c g extra)).map (fun fr => fr.attrs) := by cbv

set_option maxRecDepth 100000 in
theorem args_ppo (env : Env V) (g : Key → V) (extra : Key → Option V) :
    (init .ppo env (arity .ppo) (conf .ppo g extra)).map (args .ppo (builtNames .ppo g)) = .ok (wanted .ppo g false false) := by cbv

set_option maxRecDepth 100000 in
theorem fix_ppo (env : Env V) (g : Key → V) (extra : Key → Option V) :
    (init .ppo env (arity .ppo) (conf .ppo g extra)).map (fun fr => fr.attrs.map (fix .ppo g)) =
    (init .ppo env (arity .ppo) (conf .ppo g extra)).map (fun fr => fr.attrs) := by cbv

set_option maxRecDepth 100000 in
theorem args_trpo (env : Env V) (g : Key → V) (extra : Key → Option V) :
    (init .trpo env (arity .trpo) (conf .trpo g extra)).map (args .trpo (builtNames .trpo g)) = .ok (wanted .trpo g false false) := by cbv

set_option maxRecDepth 100000 in
theorem fix_trpo (env : Env V) (g : Key → V) (extra : Key → Option V) :
    (init .trpo env (arity .trpo) (conf .trpo g extra)).map (fun fr => fr.attrs.map (fix .trpo g)) =
    (init .trpo env (arity .trpo) (conf .trpo g extra)).map (fun fr => fr.attrs) := by cbv

set_option maxRecDepth 100000 in
theorem args_sac (env : Env V) (g : Key → V) (extra : Key → Option V) :
    (init .sac env (arity .sac) (conf .sac g extra)).map (args .sac (builtNames .sac g)) = .ok (wanted .sac g false false) := by cbv

set_option maxRecDepth 100000 in
theorem fix_sac (env : Env V) (g : Key → V) (extra : Key → Option V) :
    (init .sac env (arity .sac) (conf .sac g extra)).map (fun fr => fr.attrs.map (fix .sac g)) =
    (init .sac env (arity .sac) (conf .sac g extra)).map (fun fr => fr.attrs) := by cbv

set_option maxRecDepth 100000 in
theorem args_ars (env : Env V) (g : Key → V) (extra : Key → Option V) :
    (init .ars env (arity .ars) (conf .ars g extra)).map (args .ars (builtNames .ars g)) = .ok (wanted .ars g false false) := by cbv

set_option maxRecDepth 100000 in
theorem fix_ars (env : Env V) (g : Key → V) (extra : Key → Option V) :
    (init .ars env (arity .ars) (conf .ars g extra)).map (fun fr => fr.attrs.map (fix .ars g)) =
    (init .ars env (arity .ars) (conf .ars g extra)).map (fun fr => fr.attrs) := by cbv

set_option maxRecDepth 100000 in
theorem args_maddpg (env : Env V) (g : Key → V) (extra : Key → Option V) :
    (init .maddpg env (arity .maddpg) (conf .maddpg g extra)).map (args .maddpg (builtNames .maddpg g)) = .ok (wanted .maddpg g false false) := by cbv

set_option maxRecDepth 100000 in
theorem fix_maddpg (env : Env V) (g : Key → V) (extra : Key → Option V) :
    (init .maddpg env (arity .maddpg) (conf .maddpg g extra)).map (fun fr => fr.attrs.map (fix .maddpg g)) =
    (init .maddpg env (arity .maddpg) (conf .maddpg g extra)).map (fun fr => fr.attrs) := by cbv

set_option maxRecDepth 100000 in
theorem args_dqnApex (l : Bool) (g : Key → V) (extra : Key → Option V) :
    (initLearnersWith l Algo.dqnApex.chain .apexGroupName .apexMembers true (arity .dqnApex) (conf .dqnApex g extra)).map (args .dqnApex (builtNames .dqnApex g)) =
      .ok (wanted .dqnApex g l false) := by
  cases l <;> cbv

set_option maxRecDepth 100000 in
theorem fix_dqnApex (l : Bool) (g : Key → V) (extra : Key → Option V) :
    (initLearnersWith l Algo.dqnApex.chain .apexGroupName .apexMembers true (arity .dqnApex) (conf .dqnApex g extra)).map (fun fr => fr.attrs.map (fix .dqnApex g)) =
    (initLearnersWith l Algo.dqnApex.chain .apexGroupName .apexMembers true (arity .dqnApex) (conf .dqnApex g extra)).map (fun fr => fr.attrs) := by
  cases l <;> cbv

set_option maxRecDepth 100000 in
theorem args_ddpgApex (l : Bool) (g : Key → V) (extra : Key → Option V) :
    (initLearnersWith l Algo.ddpgApex.chain .apexGroupName .apexMembers true (arity .ddpgApex) (conf .ddpgApex g extra)).map (args .ddpgApex (builtNames .ddpgApex g)) =
      .ok (wanted .ddpgApex g l false) := by
  cases l <;> cbv

set_option maxRecDepth 100000 in
theorem fix_ddpgApex (l : Bool) (g : Key → V) (extra : Key → Option V) :
    (initLearnersWith l Algo.ddpgApex.chain .apexGroupName .apexMembers true (arity .ddpgApex) (conf .ddpgApex g extra)).map (fun fr => fr.attrs.map (fix .ddpgApex g)) =
    (initLearnersWith l Algo.ddpgApex.chain .apexGroupName .apexMembers true (arity .ddpgApex) (conf .ddpgApex g extra)).map (fun fr => fr.attrs) := by
  cases l <;> cbv

set_option maxRecDepth 100000 in
theorem args_impala (l : Bool) (g : Key → V) (extra : Key → Option V) :
    (initLearnersWith l Algo.impala.chain .impalaGroupName .impalaMembers false (arity .impala) (conf .impala g extra)).map (args .impala (builtNames .impala g)) =
      .ok (wanted .impala g l false) := by
  cases l <;> cbv

set_option maxRecDepth 100000 in
theorem fix_impala (l : Bool) (g : Key → V) (extra : Key → Option V) :
    (initLearnersWith l Algo.impala.chain .impalaGroupName .impalaMembers false (arity .impala) (conf .impala g extra)).map (fun fr => fr.attrs.map (fix .impala g)) =
    (initLearnersWith l Algo.impala.chain .impalaGroupName .impalaMembers false (arity .impala) (conf .impala g extra)).map (fun fr => fr.attrs) := by
  cases l <;> cbv

set_option maxRecDepth 100000 in
theorem args_gail (ppo f : Bool) (g : Key → V) (extra : Key → Option V) :
    (initGailWith ppo f 1 (conf .gail g extra)).map (args .gail (builtNames .gail g)) = .ok (wanted .gail g false ppo) := by
  cases ppo <;> cases f <;> cbv

set_option maxRecDepth 100000 in
theorem fix_gail (ppo f : Bool) (g : Key → V) (extra : Key → Option V) :
    (initGailWith ppo f 1 (conf .gail g extra)).map (fun fr => fr.attrs.map (fix .gail g)) =
    (initGailWith ppo f 1 (conf .gail g extra)).map (fun fr => fr.attrs) := by
  cases ppo <;> cases f <;> cbv

end Machin.Frames
