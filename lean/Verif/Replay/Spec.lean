/-!
# Specification of the replay buffer

Written without reference to the model: a buffer of capacity `n` holds the longest suffix of the accepted episodes
whose total length is at most `n`.
-/

namespace Machin.Replay.Spec

/-- The episodes of a history of `store_episode` calls that must be accepted: the non-empty ones all of whose items are
valid (`conv` turns an item into a transition or rejects it). -/
def accepted {ι ε τ : Type} (conv : ι → Except ε τ) (history : List (List ι)) : List (List τ) :=
  history.filterMap fun ep => if ep = [] then none else (ep.mapM conv).toOption

/-- The longest suffix of a list of episodes that has at most `n` transitions in total. -/
def keep {τ : Type} (n : Nat) : List (List τ) → List (List τ)
  | [] => []
  | e :: es => if (e :: es).flatten.length ≤ n then e :: es else keep n es

end Machin.Replay.Spec
