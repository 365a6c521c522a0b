import Verif.Returns.Spec
import Mathlib.Algebra.BigOperators.Group.Finset.Defs
import Mathlib.Data.Fintype.Basic

/-!
# Averages over the episodes that a policy plays

Not code of machin: a finite environment, a policy, and the average over the episodes which they produce together, against which the values and
advantages that `store_episode` (`machin/frame/algorithms/a2c.py` lines 269-325) computes for one episode are measured.
-/

namespace Machin.Returns.Spec

variable {R S A Ω : Type} [CommRing R]

/-- An environment: in state `s` action `a` has one of finitely many outcomes `o`, each with its probability, reward, next state and terminal flag. -/
structure Env (R S A Ω : Type) where
  prob : S → A → Ω → R
  reward : S → A → Ω → R
  next : S → A → Ω → S
  term : S → A → Ω → Bool

/-- The transition that is recorded. -/
def Env.tr (e : Env R S A Ω) (s : S) (a : A) (o : Ω) : Tr R S := ⟨s, e.next s a o, e.reward s a o, e.term s a o⟩

/-- The average of `f` over the episodes that begin in `s` and have at most `n` steps: an action is drawn, an outcome is drawn, and the episode ends or
goes on in the next state. -/
def avg [Fintype A] [Fintype Ω] (e : Env R S A Ω) (pi : S → A → R) : Nat → S → (List (A × Tr R S) → R) → R
  | 0, _, f => f []
  | n + 1, s, f =>
    ∑ a, pi s a * ∑ o, e.prob s a o *
      if e.term s a o then f [(a, e.tr s a o)] else avg e pi n (e.next s a o) (fun l => f ((a, e.tr s a o) :: l))

/-- Outcomes and actions have probabilities that add up to one. -/
structure Fair [Fintype A] [Fintype Ω] (e : Env R S A Ω) (pi : S → A → R) : Prop where
  outcomes : ∀ s a, ∑ o, e.prob s a o = 1
  actions : ∀ s, ∑ a, pi s a = 1

/-- Every episode ends: `rank` bounds the number of steps that can follow. -/
def Ending (e : Env R S A Ω) (rank : S → Nat) : Prop := ∀ s a o, e.term s a o = false → rank (e.next s a o) < rank s

/-- `Q` and `V` are the values of the actions and states under the policy. -/
structure Exact [Fintype A] [Fintype Ω] (e : Env R S A Ω) (pi : S → A → R) (g : R) (Q : S → A → R) (V : S → R) : Prop where
  action : ∀ s a, Q s a = ∑ o, e.prob s a o * (e.reward s a o + g * if e.term s a o then 0 else V (e.next s a o))
  state : ∀ s, V s = ∑ a, pi s a * Q s a

/-- The sum of the numbers `vs` of the steps of an episode, the number of a step weighted with a factor that may depend on everything that was known when
its action was taken: the steps before, the state, the action. Averages of such sums for all `w` say what the numbers are on average, given what was known. -/
def weighted (w : List (A × Tr R S) → S → A → R) : List (A × Tr R S) → List R → R
  | x :: ep, v :: vs => w [] x.2.state x.1 * v + weighted (fun h => w (x :: h)) ep vs
  | _, _ => 0

end Machin.Returns.Spec
