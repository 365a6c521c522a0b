import Verif.Project.Round

/-!
# Model of the normalisation of advantages in floating point

`advantage = (advantage - advantage.mean()) / (advantage.std() + 1e-6)` in `machin/frame/algorithms/a2c.py:358-359`,
`ppo.py:128-129` and `trpo.py:203-204`; the exact version is `normalize` in `Verif.Algo.ModelProb`. The tensor has the type `float32`;
`f` is the rounding of its operations and `d` the one of the literal `1e-6`. The order in which torch adds the elements of a
tensor depends on its size and on the machine, so it is a parameter: any tree with the elements as leaves. The standard deviation is
a parameter too: torch computes it in `float64` and rounds it once. Overflow is left out.
-/

namespace Machin.Precision

/-- An order of summation of the elements of a tensor. -/
inductive Order
  | leaf (x : ℚ)
  | node (l r : Order)

/-- The elements added. -/
def Order.leaves : Order → List ℚ
  | .leaf x => [x]
  | .node l r => l.leaves ++ r.leaves

/-- The number of additions one after the other. -/
def Order.depth : Order → Nat
  | .leaf _ => 0
  | .node l r => max l.depth r.depth + 1

/-- `advantage.sum()` (part of `mean()`, a2c.py:359). -/
def Order.sumF (f : ℚ → ℚ) : Order → ℚ
  | .leaf x => x
  | .node l r => f (l.sumF f + r.sumF f)

/-- `advantage.mean()` (a2c.py:359). -/
def meanF (f : ℚ → ℚ) (t : Order) : ℚ := f (t.sumF f / t.leaves.length)

/-- `advantage.std() + 1e-6` (a2c.py:359) for the standard deviation `s`. -/
def denomF (d f : ℚ → ℚ) (s : ℚ) : ℚ := f (s + f (d (1 / 1000000)))

/-- One element of the normalised advantages (a2c.py:359). -/
def normAdvF (d f : ℚ → ℚ) (t : Order) (s a : ℚ) : ℚ := f (f (a - meanF f t) / denomF d f s)

/-- The normalised advantages of the batch `l`, added in the order `t` (a2c.py:358-359, ppo.py:128-129, trpo.py:203-204). -/
def normalizeF (d f : ℚ → ℚ) (t : Order) (s : ℚ) (l : List ℚ) : List ℚ := l.map (normAdvF d f t s)

end Machin.Precision
