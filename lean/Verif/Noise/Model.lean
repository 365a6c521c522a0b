import Verif.Base.Err
import Mathlib.Algebra.Order.Field.Basic
import Mathlib.Logic.Function.Basic

/-!
# Model of action noise and parameter noise (`machin/frame/noise/*.py`)

Numbers are elements of an ordered field. Draws of the random number generators are parameters: `u` for `t.rand` (in `[0, 1)`) and
`z` for `t.randn` (any numbers).
-/

namespace Machin.Noise

/-! ### Action noise -/

/-- `noise_param`: one tuple, or one per action component. -/
inductive Param (P : Type)
  | one (p : P)
  | each (ps : List P)

/-- The parameters of every column of an action with `width` columns; a wrong number raises (action_space_noise.py:36-40). -/
def Param.cols {P : Type} (width : Nat) : Param P → Except Err (List P)
  | .one p => .ok (List.replicate width p)
  | .each ps => if ps.length ≠ width then .error .value else .ok ps

/-- `action + noise * ratio` for one row. -/
def addRow {K : Type} [Field K] (ratio : K) (action noise : List K) : List K := action.zipWith (fun a n => a + n * ratio) noise

/-- One row of uniform noise: `rand * (max - min) + min` (action_space_noise.py:41-52). -/
def uniformRow {K : Type} [Field K] (ps : List (K × K)) (u : List K) : List K := ps.zipWith (fun p x => x * (p.2 - p.1) + p.1) u

/-- `add_uniform_noise_to_action` (action_space_noise.py:12-53); `u` are the draws. -/
def addUniform {K : Type} [Field K] (width : Nat) (action u : List (List K)) (param : Param (K × K)) (ratio : K) :
    Except Err (List (List K)) :=
  match param.cols width with
  | .error e => .error e
  | .ok ps => .ok (action.zipWith (fun a x => addRow ratio a (uniformRow ps x)) u)

/-- Parameters of clipped normal noise. -/
structure Clipped (K : Type) where
  mean : K
  sigma : K
  lo : K
  hi : K

/-- One row of "clipped normal" noise (action_space_noise.py:85-99): the draws are those of `t.rand`, they are scaled with
`sigma - mean`, and the result of `clamp` is thrown away. -/
def clippedRow {K : Type} [Field K] (ps : List (Clipped K)) (u : List K) : List K :=
  ps.zipWith (fun p x => x * (p.sigma - p.mean) + p.mean) u

/-- `add_clipped_normal_noise_to_action` (action_space_noise.py:56-100); `u` are the draws of `t.rand`. -/
def addClipped {K : Type} [Field K] (width : Nat) (action u : List (List K)) (param : Param (Clipped K)) (ratio : K) :
    Except Err (List (List K)) :=
  match param.cols width with
  | .error e => .error e
  | .ok ps => .ok (action.zipWith (fun a x => addRow ratio a (clippedRow ps x)) u)

/-- `add_normal_noise_to_action` (action_space_noise.py:103-140): with one tuple the draws are those of `t.rand`, with several those
of `t.randn`. -/
def addNormal {K : Type} [Field K] (width : Nat) (action u z : List (List K)) (param : Param (K × K)) (ratio : K) :
    Except Err (List (List K)) :=
  match param with
  | .one p => .ok (action.zipWith (fun a x => addRow ratio a (x.map fun x => x * p.2 + p.1)) u)
  | .each ps =>
    if ps.length ≠ width then .error .value
    else .ok (action.zipWith (fun a x => addRow ratio a (ps.zipWith (fun p x => x * p.2 + p.1) x)) z)

/-- `ClippedNormalNoiseGen.__call__` (generator.py:94-98): a sample of the normal distribution, `min` and `max` are not used. -/
def clippedGen {K : Type} [Field K] (p : Clipped K) (z : List K) : List K := z.map fun x => p.mean + p.sigma * x

/-- `UniformNoiseGen.__call__` (generator.py:128-132), `torch.distributions.Uniform.sample` written out. -/
def uniformGen {K : Type} [Field K] (lo hi : K) (u : List K) : List K := u.map fun x => lo + x * (hi - lo)

/-- `OrnsteinUhlenbeckNoiseGen` for one component (generator.py:138-203); `sqrtDt` is `t.sqrt(self.dt)`. -/
structure Ou (K : Type) where
  mu : K
  sigma : K
  theta : K
  dt : K
  sqrtDt : K
  x0 : Option K
  xPrev : K

/-- `reset` (generator.py:196-200). -/
def Ou.reset {K : Type} [Field K] (g : Ou K) : Ou K := { g with xPrev := g.x0.getD 0 }

/-- `__call__` (generator.py:184-194). -/
def Ou.call {K : Type} [Field K] (g : Ou K) (z : K) : Ou K × K :=
  let x := g.xPrev + g.theta * (g.mu - g.xPrev) * g.dt + g.sigma * g.sqrtDt * z
  ({ g with xPrev := x }, x)

/-- A sequence of calls. -/
def Ou.calls {K : Type} [Field K] (g : Ou K) : List K → Ou K × List K
  | [] => (g, [])
  | z :: zs =>
    let (g, x) := g.call z
    let (g, xs) := g.calls zs
    (g, x :: xs)

/-- `add_ou_noise_to_action` (action_space_noise.py:143-171), as far as the shared generator is concerned: `make` builds it from
the given parameters, `None` cannot be unpacked. -/
def addOu {K : Type} [Field K] (gen : Option (Ou K)) (make : Option (Ou K)) (reset : Bool) (action ratio z : K) :
    Option (Ou K) × Except Err K :=
  let gen := if reset then none else gen
  match gen with
  | some g => let (g, x) := g.call z; (some g, .ok (action + x * ratio))
  | none =>
    match make with
    | none => (none, .error .type)
    | some g => let (g, x) := g.reset.call z; (some g, .ok (action + x * ratio))

/-! ### Adaptive parameter noise -/

/-- `AdaptiveParamNoise` (param_space_noise.py:10-46). -/
structure Adaptive (K : Type) where
  initial : K
  desired : K
  coeff : K
  current : K

/-- `adapt` (param_space_noise.py:48-61). -/
def Adaptive.adapt {K : Type} [Field K] [LinearOrder K] (a : Adaptive K) (distance : K) : Adaptive K :=
  if a.desired < distance then { a with current := a.current / a.coeff } else { a with current := a.current * a.coeff }

/-! ### The hooks -/

/-- The tensors involved in `_add_perturb_hook` (param_space_noise.py:77-129): a store of numbers, one address per parameter, and
the two dictionaries `org_params`, `noisy_params` (addresses in the order of `named_parameters`, empty when cleared). Every tensor is
one number; `set_` makes a parameter use the storage of another tensor. -/
structure Hooked (K : Type) where
  heap : Nat → K
  next : Nat
  params : List Nat
  org : List Nat
  noisy : List Nat

/-- The values of the parameters. -/
def Hooked.values {K : Type} (s : Hooked K) : List K := s.params.map s.heap

/-- The loop that generates noisy parameters (param_space_noise.py:94-102): `clone`, in-place addition, `clone`. -/
def generate {K : Type} [Add K] (noise : Nat → K) : Nat → (Nat → K) → Nat → List Nat → (Nat → K) × Nat × List Nat × List Nat
  | _, h, next, [] => (h, next, [], [])
  | k, h, next, p :: ps =>
    let h := Function.update h next (h p)
    let h := Function.update h p (h p + noise k)
    let h := Function.update h (next + 1) (h p)
    let (h, next', org, noisy) := generate noise (k + 1) h (next + 2) ps
    (h, next', next :: org, (next + 1) :: noisy)

/-- `perturb_pre_hook` (param_space_noise.py:83-109): what a forward pass does to the parameters. -/
def Hooked.forward {K : Type} [Add K] (s : Hooked K) (perturb reset : Bool) (noise : Nat → K) : Hooked K :=
  if perturb then
    if s.noisy ≠ [] ∧ reset = false then { s with params := s.noisy }
    else
      let (h, next, org, noisy) := generate noise 0 s.heap s.next s.params
      { s with heap := h, next := next, org := org, noisy := noisy }
  else if s.org ≠ [] then { s with params := s.org }
  else s

/-- The hooks run by a backward pass (param_space_noise.py:112-127): `param_name` and `param_value` are those of the last round of the
loop for every hook, so each of them swaps the last parameter. -/
def Hooked.backward {K : Type} (s : Hooked K) : Hooked K :=
  match s.org.getLast? with
  | none => s
  | some o => { s with params := s.params.dropLast ++ [o] }

/-- In-place change of every parameter by an optimizer step. -/
def stepHeap {K : Type} [Sub K] (delta : Nat → K) : Nat → (Nat → K) → List Nat → (Nat → K)
  | _, h, [] => h
  | k, h, p :: ps => stepHeap delta (k + 1) (Function.update h p (h p - delta k)) ps

/-- `optim.step()`. -/
def Hooked.step {K : Type} [Sub K] (s : Hooked K) (delta : Nat → K) : Hooked K := { s with heap := stepHeap delta 0 s.heap s.params }

end Machin.Noise
