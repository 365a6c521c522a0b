import Mathlib.Data.Rat.Floor
import Mathlib.Algebra.Order.Field.Rat

/-! # The distributional target of RAINBOW (`machin/frame/algorithms/rainbow.py`, lines 231-296)

Numbers are rationals; a `[batch_size, atom_num]` tensor is a function of row and column, and a list in row-major order after
`view(-1)`. -/

namespace Machin.Project

/-- Number of atoms, bounds of the support. -/
structure Support where
  atoms : Nat
  vmin : Rat
  vmax : Rat

/-- `delta_z` (rainbow.py:260). -/
def Support.delta (s : Support) : Rat := (s.vmax - s.vmin) / ((s.atoms : Rat) - 1)

/-- `t.linspace(self.v_min, self.v_max, atom_num)` (rainbow.py:232). -/
def Support.z (s : Support) (j : Nat) : Rat := s.vmin + j * s.delta

/-- `T_z` (rainbow.py:248-254): the default `reward_function` (dqn.py:497-501). -/
def shifted (s : Support) (value discountN : Nat → Rat) (terminal : Nat → Bool) (i j : Nat) : Rat :=
  value i + discountN i * (if terminal i then 0 else 1) * s.z j

/-- `1e-6` (rainbow.py:257). -/
def eps : Rat := 1 / 1000000

/-- `T_z.clamp(self.v_min + 1e-6, self.v_max - 1e-6)` (rainbow.py:257). -/
def clamp (s : Support) (x : Rat) : Rat := min (max x (s.vmin + eps)) (s.vmax - eps)

/-- `b` (rainbow.py:265). -/
def pos (s : Support) (x : Rat) : Rat := (clamp s x - s.vmin) / s.delta

/-- `target.index_add_(0, index, source)`. -/
def indexAdd (target : List Rat) (idx : List Nat) (src : List Rat) : List Rat :=
  (idx.zip src).foldl (fun t iw => t.modify iw.1 (· + iw.2)) target

/-- A `[batch, atoms]` tensor flattened by `view(-1)`. -/
def flat {A : Type} (batch atoms : Nat) (f : Nat → Nat → A) : List A :=
  (List.range (batch * atoms)).map (fun m => f (m / atoms) (m % atoms))

/-- The target distribution, flattened (rainbow.py:265-296): `T` is `T_z`, `p` the distribution of the next state. -/
def target (s : Support) (batch : Nat) (T p : Nat → Nat → Rat) : List Rat :=
  let b := fun i j => pos s (T i j)
  let lIdx := flat batch s.atoms (fun i j => (⌊b i j⌋).toNat + i * s.atoms)       -- `l_idx + offset`
  let uIdx := flat batch s.atoms (fun i j => (⌈b i j⌉).toNat + i * s.atoms)       -- `u_idx + offset`
  let lWeight := flat batch s.atoms (fun i j => ((⌈b i j⌉ : Rat) - b i j) * p i j)  -- `u_dist * target_next_q_dist`
  let uWeight := flat batch s.atoms (fun i j => (b i j - (⌊b i j⌋ : Rat)) * p i j)  -- `l_dist * target_next_q_dist`
  indexAdd (indexAdd (List.replicate (batch * s.atoms) 0) lIdx lWeight) uIdx uWeight

end Machin.Project
