import Verif.Base.Err
import Verif.Project.Model
import Verif.Prio.Round

/-! # The distributional target of RAINBOW in floating point (`machin/frame/algorithms/rainbow.py`, lines 256-296)

The same lines as in `Verif/Project/Model.lean`, with every operation followed by its rounding: `d` rounds the numbers of python (double
precision), `f` the elements of the tensors (single precision, the default type of PyTorch). A python number that meets a tensor is
converted to the type of the tensor first. Exponents are unbounded. -/

namespace Machin.Project

/-- IEEE 754 binary32 without overflow and underflow. -/
def single : ℚ → ℚ := Prio.toNearest 24

/-- `self.v_min + 1e-6` as the lower end of the clamp (rainbow.py:257). -/
def lowF (d f : ℚ → ℚ) (s : Support) : ℚ := f (d (s.vmin + d eps))

/-- `self.v_max - 1e-6` as the upper end of the clamp (rainbow.py:257). -/
def highF (d f : ℚ → ℚ) (s : Support) : ℚ := f (d (s.vmax - d eps))

/-- `T_z.clamp(self.v_min + 1e-6, self.v_max - 1e-6)` (rainbow.py:257). -/
def clampF (d f : ℚ → ℚ) (s : Support) (x : ℚ) : ℚ := min (max x (lowF d f s)) (highF d f s)

/-- `delta_z = (self.v_max - self.v_min) / (atom_num - 1.0)` (rainbow.py:260), converted to the type of the tensor it divides. -/
def deltaF (d f : ℚ → ℚ) (s : Support) : ℚ := f (d (d (s.vmax - s.vmin) / ((s.atoms : ℚ) - 1)))

/-- `b = (T_z - self.v_min) / delta_z` (rainbow.py:265). -/
def posF (d f : ℚ → ℚ) (s : Support) (x : ℚ) : ℚ := f (f (clampF d f s x - f s.vmin) / deltaF d f s)

/-- `l_weight`: `(u - b) * target_next_q_dist` (rainbow.py:272-273). -/
def lowerF (f : ℚ → ℚ) (b p : ℚ) : ℚ := f (f ((⌈b⌉ : ℚ) - b) * p)

/-- `u_weight`: `(b - l) * target_next_q_dist` (rainbow.py:271, 274). -/
def upperF (f : ℚ → ℚ) (b p : ℚ) : ℚ := f (f (b - (⌊b⌋ : ℚ)) * p)

/-- `target.index_add_(0, index, source)` (rainbow.py:294-295): an index out of range raises. -/
def indexAddF (f : ℚ → ℚ) (target : List ℚ) (idx : List Nat) (src : List ℚ) : Except Err (List ℚ) :=
  if idx.all (· < target.length) then .ok ((idx.zip src).foldl (fun t iw => t.modify iw.1 (fun x => f (x + iw.2))) target)
  else .error .index

/-- The target distribution, flattened (rainbow.py:265-296): `T` is `T_z`, `p` the distribution of the next state. -/
def targetF (d f : ℚ → ℚ) (s : Support) (batch : Nat) (T p : Nat → Nat → ℚ) : Except Err (List ℚ) :=
  let b := fun i j => posF d f s (T i j)
  let lIdx := flat batch s.atoms (fun i j => (⌊b i j⌋).toNat + i * s.atoms)       -- `l_idx + offset`
  let uIdx := flat batch s.atoms (fun i j => (⌈b i j⌉).toNat + i * s.atoms)       -- `u_idx + offset`
  let lWeight := flat batch s.atoms (fun i j => lowerF f (b i j) (p i j))
  let uWeight := flat batch s.atoms (fun i j => upperF f (b i j) (p i j))
  do indexAddF f (← indexAddF f (List.replicate (batch * s.atoms) 0) lIdx lWeight) uIdx uWeight

end Machin.Project
