import Verif.Returns.SpecEpisodes
import Verif.Impala.Model

/-!
# What v-trace targets should be on average

Not code of machin. Episodes are played by a behaviour policy `mu`; `ratio s a` is the quotient of the probabilities of action `a` under the learner's
policy and under `mu`. The targets of IMPALA (`machin/frame/algorithms/impala.py` lines 338-368) are meant to be estimates of the value function of the
policy that arises when the ratios are clipped at `isw_clip_rho`.
-/

namespace Machin.Impala.Spec

open Machin.Returns Machin.Returns.Spec

variable {K S A Ω : Type} [CommRing K] [LinearOrder K]

/-- What `update` knows about a step of an episode, with the critic `V`. -/
def record (ratio : S → A → K) (V : S → K) (x : A × Tr K S) : Datum K :=
  ⟨ratio x.2.state x.1, V x.2.state, V x.2.next, x.2.reward, x.2.terminal⟩

/-- The critic is the value function of the clipped policy: in every state the clipped temporal difference is 0 on average. -/
def Fixed [Fintype A] [Fintype Ω] (e : Env K S A Ω) (mu ratio : S → A → K) (h : Hyper K) (V : S → K) : Prop :=
  ∀ s, ∑ a, mu s a * ∑ o, e.prob s a o *
    (min h.clipRho (ratio s a) * (e.reward s a o + h.discount * (if e.term s a o then 0 else V (e.next s a o)) - V s)) = 0

/-- What reaches the first step of an episode of the target that its last step should have: `V + rho * (r + g V' - V)` of the last step, times the discount
and the clipped ratio of every step before it. -/
def lost (h : Hyper K) : List (Datum K) → K
  | [] => 0
  | [x] => x.value + min h.clipRho x.ratio * (x.reward + h.discount * (if x.terminal then 0 else x.nextValue) - x.value)
  | x :: y :: l => h.discount * min h.clipC x.ratio * lost h (y :: l)

/-- The same for every step. -/
def losts (h : Hyper K) : List (Datum K) → List K
  | [] => []
  | x :: l => lost h (x :: l) :: losts h l

/-- What is missing in the factor of the policy loss of every step: `rho * g` times what the target of the next step lacks. -/
def lostAdvantages (h : Hyper K) : List (Datum K) → List K
  | [] => []
  | x :: l => min h.clipRho x.ratio * (h.discount * lost h l) :: lostAdvantages h l

end Machin.Impala.Spec
