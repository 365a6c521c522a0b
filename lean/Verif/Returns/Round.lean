import Verif.Returns.Model
import Verif.Prio.Round

/-! # Values and advantages in floating point

The lines of `Verif/Returns/Model.lean` (`machin/frame/algorithms/a2c.py` lines 275-313, `machin/frame/algorithms/rainbow.py` lines 179-192) with every
operation followed by its rounding `fl`. Rewards, discount, `gae_lambda` and the values of the critic (`.item()`) are python numbers, so the rounding is
that of double precision. -/

namespace Machin.Returns

variable {S : Type}

/-- `values` (a2c.py:275-281). -/
def valuesF (fl : ℚ → ℚ) (g : ℚ) : List ℚ → List ℚ
  | [] => []
  | [r] => [r]
  | r :: r' :: rest =>
    match valuesF fl g (r' :: rest) with
    | [] => []
    | v :: vs => fl (fl (v * g) + r) :: v :: vs

/-- The inner loop (rainbow.py:181-191). -/
def hornerF (fl : ℚ → ℚ) (g : ℚ) : List ℚ → ℚ
  | [] => 0
  | r :: rest => fl (fl (hornerF fl g rest * g) + r)

/-- The n-step values (rainbow.py:179-192). -/
def nstepF (fl : ℚ → ℚ) (g : ℚ) (n : Nat) : List ℚ → List ℚ
  | [] => []
  | r :: rest => hornerF fl g ((r :: rest).take (min n (rest.length + 1))) :: nstepF fl g n rest

/-- The branch `gae_lambda == 1.0` (a2c.py:284-286). -/
def gaeOneF (fl : ℚ → ℚ) (g : ℚ) (V : S → ℚ) (ep : List (Tr ℚ S)) : List ℚ :=
  List.zipWith (fun v tr => fl (v - V tr.state)) (valuesF fl g (ep.map (·.reward))) ep

/-- The branch `gae_lambda == 0.0` (a2c.py:287-295). -/
def gaeZeroF (fl : ℚ → ℚ) (g : ℚ) (V : S → ℚ) (ep : List (Tr ℚ S)) : List ℚ :=
  ep.map (fun tr => fl (fl (tr.reward + fl (fl (g * notTerm tr.terminal) * V tr.next)) - V tr.state))

/-- The general branch (a2c.py:296-313). -/
def gaeLoopF (fl : ℚ → ℚ) (g l : ℚ) (V : S → ℚ) : List (Tr ℚ S) → ℚ × ℚ × List ℚ
  | [] => (0, 0, [])
  | tr :: rest =>
    match gaeLoopF fl g l V rest with
    | (lastCritic, lastGae, out) =>
      let delta := fl (fl (tr.reward + fl (fl (g * lastCritic) * notTerm tr.terminal)) - V tr.state)
      let gae := fl (fl (fl (fl (lastGae * g) * notTerm tr.terminal) * l) + delta)
      (V tr.state, gae, gae :: out)

/-- The advantages of the general branch. -/
def gaeGeneralF (fl : ℚ → ℚ) (g l : ℚ) (V : S → ℚ) (ep : List (Tr ℚ S)) : List ℚ := (gaeLoopF fl g l V ep).2.2

/-- The three branches (a2c.py:284-313). -/
def gaeF (fl : ℚ → ℚ) (g l : ℚ) (V : S → ℚ) (ep : List (Tr ℚ S)) : List ℚ :=
  if l = 1 then gaeOneF fl g V ep else if l = 0 then gaeZeroF fl g V ep else gaeGeneralF fl g l V ep

end Machin.Returns
