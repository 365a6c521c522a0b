import Verif.Impala.Model
import Verif.Replay.Spec

/-! # Specification for IMPALA -/

namespace Machin.Impala.Spec

/-- An item that can carry an episode length. -/
def canCarry {ι : Type} : Item ι → Bool
  | .dict _ => true
  | .trans _ b => b

/-- The contents of the episodes of a history that must be accepted: the non-empty ones all of whose items can carry the
episode length and have a valid content. -/
def accepted {ι σ : Type} (conv : ι → Except Err σ) (history : List (List (Item ι))) : List (List σ) :=
  history.filterMap fun ep =>
    if ep = [] then none else if ep.all canCarry then (ep.mapM fun i => conv i.content).toOption else none

/-- The contents of the live episodes of a buffer of capacity `n`: the longest suffix, that fits, of the accepted episodes;
an episode longer than the capacity is rejected. -/
def live {ι σ : Type} (conv : ι → Except Err σ) (n : Nat) (history : List (List (Item ι))) : List (List σ) :=
  Replay.Spec.keep n ((accepted conv history).filter fun e => e.length ≤ n)

end Machin.Impala.Spec
