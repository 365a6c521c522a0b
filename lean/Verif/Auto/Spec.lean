import Verif.Auto.Model

/-!
# What an episode is

`Played` says, without loops and local variables, that the steps of an episode were played one after the other in an environment.
-/

namespace Machin.Auto.Spec

open Machin.Auto

/-- One step that was played: the environment before it, the stored transition and the information. -/
structure Step (W α I : Type) where
  world : W
  obs : Obs α
  info : I

/-- `Played choose env f w s steps f' w'`: starting with algorithm `f`, environment `w` and state `s`, the steps are played in order, every
action is chosen in the current state and given to the current environment, and the episode ends with the first terminal step. -/
inductive Played {F W α I P : Type} (choose : Choose F α) (env : Env W α I P) :
    Frame F → W → Tensor α → List (Step W α I) → Frame F → W → Prop
  | last {f f' : Frame F} {w w' : W} {s stored : Tensor α} {a : EnvAct α} {out : StepOut α I}
      (hc : choose f s = .ok ((a, stored), f')) (hs : env.step w a = .ok (out, w')) (ht : out.terminal = true) :
      Played choose env f w s [⟨w, ⟨s, stored, toState out.obs, out.reward, true⟩, out.info⟩] f' w'
  | more {f f' f'' : Frame F} {w w' w'' : W} {s stored : Tensor α} {a : EnvAct α} {out : StepOut α I} {steps : List (Step W α I)}
      (hc : choose f s = .ok ((a, stored), f')) (hs : env.step w a = .ok (out, w')) (ht : out.terminal = false)
      (hr : Played choose env f' w' (toState out.obs) steps f'' w'') :
      Played choose env f w s (⟨w, ⟨s, stored, toState out.obs, out.reward, false⟩, out.info⟩ :: steps) f'' w''

/-- The sum of a list of rewards. -/
def sumRewards : List Rat → Rat
  | [] => 0
  | r :: rs => r + sumRewards rs

end Machin.Auto.Spec
