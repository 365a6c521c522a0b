import Verif.Trpo.Model

/-! # Model of the flat gradient of TRPO

`get_flat_grad` (`machin/frame/algorithms/trpo.py` lines 464-498). -/

namespace Machin.Trpo

/-- What `t.autograd.grad(…, allow_unused=True)` returns for one parameter, flattened; `t.zeros_like(p)` for a parameter that is not used
(trpo.py:487-492). -/
def gradOr {K : Type} [Zero K] (g : Option (List K)) (p : Tensor K) : List K :=
  match g with
  | some g => g
  | none => List.replicate p.data.length 0

/-- `get_flat_grad` (trpo.py:464-498): the flat gradient; `t.cat([])` raises. `grads` are the results of autograd. The second result are the
`grad` attributes of the parameters afterwards (trpo.py:495-496). -/
def flatGrad {K : Type} [Zero K] (grads : List (Option (List K))) (m : Model K) : Except Err (List K) × List (Option (List K)) :=
  match (grads.zip m).map fun q => gradOr q.1 q.2 with
  | [] => (.error .runtime, m.map fun _ => none)
  | l => (.ok l.flatten, m.map fun _ => none)

end Machin.Trpo
