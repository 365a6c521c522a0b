import Verif.Noise.Model

/-! # The end of parameter noise (`cancel`, machin/frame/noise/param_space_noise.py lines 288-293)

`perturb_model` returns a function that removes all hooks. What the hooks do is modelled in `Verif.Noise.Model`. -/

namespace Machin.Noise

/-- A model given to `perturb_model`, and whether the hooks are still registered (param_space_noise.py:259-293). -/
structure Patched (K : Type) where
  hooked : Hooked K
  live : Bool

/-- What a program does with the model: a forward pass (with the two switches and the noise it would draw), a backward pass, a step of the optimizer, and the
call of the function that `perturb_model` returned. -/
inductive Use (K : Type)
  | forward (perturb reset : Bool) (noise : Nat → K)
  | backward
  | step (delta : Nat → K)
  | cancel

/-- One of these. Torch runs the hooks of a pass only if their handles are not removed; `cancel` calls `hh.remove()` for every handle and does nothing else
(param_space_noise.py:288-291). -/
def Patched.use {K : Type} [Add K] [Sub K] (s : Patched K) : Use K → Patched K
  | .forward p r n => if s.live then { s with hooked := s.hooked.forward p r n } else s
  | .backward => if s.live then { s with hooked := s.hooked.backward } else s
  | .step d => { s with hooked := s.hooked.step d }
  | .cancel => { s with live := false }

/-- A sequence of them. -/
def Patched.run {K : Type} [Add K] [Sub K] (s : Patched K) (l : List (Use K)) : Patched K := l.foldl Patched.use s

end Machin.Noise
