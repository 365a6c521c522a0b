import Verif.Trpo.Kl
import Mathlib.Analysis.Calculus.ContDiff.Basic
import Mathlib.Analysis.Calculus.FDeriv.Prod

/-!
# Fisher-vector products of TRPO (`machin/frame/algorithms/trpo.py` lines 372-438)

`t.autograd.grad` is the derivative. Parameters form a normed space `E`; the sum `(grad * vector).sum()` is the derivative applied to the vector. A vector
that is returned is given by its products with all vectors `w` (its components are the products with the unit vectors); `dot` is the product of vectors.
-/

namespace Machin.Trpo

open Finset

variable {E : Type} [NormedAddCommGroup E] [NormedSpace ℝ E]

/-- `_fvp_direct` (trpo.py:372-398): `kl θ0 θ` is the mean of `get_kl` where what is detached is computed with `θ0`. -/
noncomputable def fvpDirect (dot : E → E → ℝ) (kl : E → E → ℝ) (damping : ℝ) (θ v w : E) : ℝ :=
  fderiv ℝ (fun θ' => fderiv ℝ (kl θ) θ' v) θ w + dot (damping • v) w

/-- `Jv` in `_fvp_fim` (trpo.py:425-430): the derivative, by the constant vector `t_` at `(1, …, 1)`, of the product of `v` with the gradient of
`(mu * t_).sum()`. -/
noncomputable def jvp {I : Type} [Fintype I] [DecidableEq I] (mu : E → I → ℝ) (θ v : E) (i : I) : ℝ :=
  fderiv ℝ (fun t : I → ℝ => fderiv ℝ (fun θ' => ∑ j, mu θ' j * t j) θ v) (fun _ => 1) (Pi.single i 1)

/-- `_fvp_fim` (trpo.py:400-438): `M` and `mu` are what `get_fim` returns, flattened; `batch` is the batch size. -/
noncomputable def fvpFim {I : Type} [Fintype I] [DecidableEq I] (dot : E → E → ℝ) (M : I → ℝ) (mu : E → I → ℝ) (batch : ℕ) (damping : ℝ) (θ v w : E) : ℝ :=
  fderiv ℝ (fun θ' => ∑ i, M i * jvp mu θ v i * mu θ' i) θ w / batch + dot (damping • v) w

variable {B D : Type} [Fintype B] [Fintype D] [DecidableEq B] [DecidableEq D]

/-- The mean of `ActorDiscrete.get_kl` (model/algorithms/trpo.py:41-46) over the rows `B`; `param` is `action_param`, `D` are the actions. -/
noncomputable def discreteKl (param : E → B → D → ℝ) (θ0 θ : E) : ℝ :=
  (∑ b, ∑ d, klDiscrete (param θ0 b d) (param θ b d)) / Fintype.card B

/-- `_fvp_fim` with `ActorDiscrete.get_fim` (model/algorithms/trpo.py:63-69). -/
noncomputable def discreteFim (dot : E → E → ℝ) (param : E → B → D → ℝ) (damping : ℝ) (θ v w : E) : ℝ :=
  fvpFim dot (fun i : B × D => fimDiscrete (param θ i.1 i.2)) (fun θ i => param θ i.1 i.2) (Fintype.card B) damping θ v w

/-- The mean of `ActorContinuous.get_kl` (model/algorithms/trpo.py:99-116); parameters are those of the network that computes means, and
`action_log_std`. -/
noncomputable def continuousKl (mean : E → B → D → ℝ) (p0 p : E × (D → ℝ)) : ℝ :=
  (∑ b, ∑ d, klContinuous (p0.2 d) (p.2 d) (mean p0.1 b d) (mean p.1 b d)) / Fintype.card B

/-- `_fvp_fim` with `ActorContinuous.get_fim` (model/algorithms/trpo.py:142-149). -/
noncomputable def continuousFim (dot : E × (D → ℝ) → E × (D → ℝ) → ℝ) (mean : E → B → D → ℝ) (damping : ℝ) (p v w : E × (D → ℝ)) : ℝ :=
  fvpFim dot (fun i : B × D => fimContinuous (p.2 i.2)) (fun p i => mean p.1 i.1 i.2) (Fintype.card B) damping p v w

end Machin.Trpo
