import Mathlib.Algebra.Ring.Basic

/-! # Values and advantages of an episode

`machin/frame/algorithms/a2c.py` lines 269-316 and `machin/frame/algorithms/rainbow.py` lines 173-201. Numbers are elements of a
commutative ring (floating point rounding is not modelled); the critic is a function from states to numbers. -/

namespace Machin.Returns

/-- The parts of a transition that are read. -/
structure Tr (R S : Type) where
  state : S
  next : S
  reward : R
  terminal : Bool

variable {R S : Type} [CommRing R]

/-- The values of an episode (a2c.py:275-281): the last value is the last reward, then backwards
`value[i-1] = value[i] * discount + reward[i-1]`. The empty episode (`IndexError`) gives the empty list. -/
def values (g : R) : List R → List R
  | [] => []
  | [r] => [r]
  | r :: r' :: rest =>
    match values g (r' :: rest) with
    | [] => []
    | v :: vs => (v * g + r) :: v :: vs

/-- `1 - float(trans["terminal"])`. -/
def notTerm (b : Bool) : R := if b then 0 else 1

/-- The branch `gae_lambda == 1.0` (a2c.py:284-286). -/
def gaeOne (g : R) (V : S → R) (ep : List (Tr R S)) : List R :=
  List.zipWith (fun v tr => v - V tr.state) (values g (ep.map (·.reward))) ep

/-- The branch `gae_lambda == 0.0` (a2c.py:287-295). -/
def gaeZero (g : R) (V : S → R) (ep : List (Tr R S)) : List R :=
  ep.map (fun tr => tr.reward + g * notTerm tr.terminal * V tr.next - V tr.state)

/-- The general branch (a2c.py:296-313), a loop over the reversed episode: `last_critic_value`, `last_gae`, and the advantages
(in order of the episode). -/
def gaeLoop (g l : R) (V : S → R) : List (Tr R S) → R × R × List R
  | [] => (0, 0, [])
  | tr :: rest =>
    match gaeLoop g l V rest with
    | (lastCritic, lastGae, out) =>
      let delta := tr.reward + g * lastCritic * notTerm tr.terminal - V tr.state
      let gae := lastGae * g * notTerm tr.terminal * l + delta
      (V tr.state, gae, gae :: out)

/-- The advantages of the general branch. -/
def gaeGeneral (g l : R) (V : S → R) (ep : List (Tr R S)) : List R := (gaeLoop g l V ep).2.2

/-- The three branches (a2c.py:284-313). -/
def gae [DecidableEq R] (g l : R) (V : S → R) (ep : List (Tr R S)) : List R :=
  if l = 1 then gaeOne g V ep else if l = 0 then gaeZero g V ep else gaeGeneral g l V ep

/-- The inner loop (rainbow.py:185-191): `for j in reversed(range(k)): value_sum = value_sum * discount + reward[i + j]`, with the
rewards from step `i` on. -/
def horner (g : R) : List R → R
  | [] => 0
  | r :: rest => horner g rest * g + r

/-- The n-step values (rainbow.py:179-192): for each step the first `min(n, len - i)` rewards. -/
def nstep (g : R) (n : Nat) : List R → List R
  | [] => []
  | r :: rest => horner g ((r :: rest).take (min n (rest.length + 1))) :: nstep g n rest

/-- The (expected) bootstrapped target of a stored step (rainbow.py:234-262, `DQN.reward_function`, dqn.py:497-501): the n-step value, plus
`discount ** n` times the value of the `next_state` of this step unless this step is terminal. -/
def rainbowTarget (g : R) (n : Nat) (V : S → R) (value : R) (tr : Tr R S) : R :=
  value + g ^ n * notTerm tr.terminal * V tr.next

end Machin.Returns
