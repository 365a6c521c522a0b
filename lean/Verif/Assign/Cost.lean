import Verif.Assign.Model
import Mathlib.Analysis.SpecialFunctions.Log.NegMulLog
import Mathlib.Algebra.BigOperators.Ring.Finset
import Mathlib.Algebra.Order.BigOperators.Ring.Finset

/-!
# The cost of a placement

The four terms of `optimize_placement` (`machin/parallel/assigner.py:336-368`) as functions of the placement probabilities, that is, after softmax. Numbers are
exact; sums over models and devices are finite sums. The divisions by sums are those of the normalisations (339-340, 352-353).
-/

namespace Machin.Assign

variable {K : Type} [Field K]

/-- `matrix / t.sum(matrix)` (assigner.py:339-340). -/
def normalised (n : Nat) (w : Nat → Nat → K) (i k : Nat) : K := w i k / ∑ a ∈ Finset.range n, ∑ b ∈ Finset.range n, w a b

/-- `model_distance` (assigner.py:341-343): zero on the diagonal. -/
def modelDistance (m : Nat) (d p : Nat → Nat → K) (i k : Nat) : K :=
  if i = k then 0 else ∑ j ∈ Finset.range m, ∑ l ∈ Finset.range m, p i j * p k l * d j l

/-- `t.mean(connection_cost)` (assigner.py:344, 364), of matrices that are normalised already. -/
def connectionCost (n m : Nat) (w d p : Nat → Nat → K) : K :=
  (∑ i ∈ Finset.range n, ∑ k ∈ Finset.range n, w i k * modelDistance m d p i k) / (n * n : Nat)

/-- `t.mean(size_match_cost)` (assigner.py:347-349, 365). -/
noncomputable def sizeCost (n m : Nat) (size cap : Nat → ℝ) (p : Nat → Nat → ℝ) : ℝ :=
  (∑ j ∈ Finset.range m, max ((∑ i ∈ Finset.range n, size i * p i j) - cap j) 0) / m

/-- `t.mean(cmplx_match_cost)` (assigner.py:352-356, 366). -/
noncomputable def complexityCost (n m : Nat) (size power : Nat → ℝ) (p : Nat → Nat → ℝ) : ℝ :=
  (∑ j ∈ Finset.range m, ((∑ i ∈ Finset.range n, size i / (∑ a ∈ Finset.range n, size a) * p i j) - power j / ∑ b ∈ Finset.range m, power b) ^ 2) / m

/-- `t.mean(entropy_cost)` (assigner.py:359-361, 367). -/
noncomputable def entropyCost (n m : Nat) (p : Nat → Nat → ℝ) : ℝ :=
  (∑ i ∈ Finset.range n, -∑ j ∈ Finset.range m, if 0 < p i j then p i j * Real.log (p i j) else 0) / n

/-- The weights of the four terms. -/
structure Weights where
  connection : ℝ
  size : ℝ
  complexity : ℝ
  entropy : ℝ

/-- `total_cost` (assigner.py:363-368). -/
noncomputable def totalCost (c : Weights) (n m : Nat) (conn dist : Nat → Nat → ℝ) (size cap power : Nat → ℝ) (p : Nat → Nat → ℝ) : ℝ :=
  connectionCost n m (normalised n conn) (normalised m dist) p * c.connection + sizeCost n m size cap p * c.size +
    complexityCost n m size power p * c.complexity + entropyCost n m p * c.entropy

end Machin.Assign
