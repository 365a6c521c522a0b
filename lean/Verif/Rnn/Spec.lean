/-! # Specification of the RNN buffers -/

namespace Machin.Rnn.Spec

/-- `w` is a contiguous run of `L` elements of `ep`. -/
def IsRun {τ : Type} (L : Nat) (ep w : List τ) : Prop :=
  ∃ p, p + L ≤ ep.length ∧ w = (ep.drop p).take L

/-- All runs of length `L` of an episode, in order of their start. -/
def runs {τ : Type} (L : Nat) (ep : List τ) : List (List τ) :=
  (List.range (ep.length + 1 - L)).map fun p => (ep.drop p).take L

end Machin.Rnn.Spec
