import Verif.World.Life

/-! # What is said about the life of the world -/

namespace Machin.World.Life.Spec

/-- Torch keeps a rank and a size that are given; a negative number lets it find them, as `torch.distributed.launch` does. -/
def Honest (a : Args) (t : Torch) : Prop := ∀ g, t.dist = some g → (0 ≤ a.rank → a.rank = g.1) ∧ (0 ≤ a.size → a.size = g.2)

/-- The infos the rpc agent has when `rank_name_map` is filled. -/
def Agent (p : Proc) (a : Args) (t : Torch) (infos : List (Nat × String)) : Prop :=
  (a.initRpc = true ∧ p.agent = none ∧ t.rpc = some infos) ∨ (a.initRpc = false ∧ p.agent = some infos)

/-- The process group can be initialized, if it should be. -/
def GroupOk (p : Proc) (a : Args) (t : Torch) : Prop := a.initDist = true → p.group = none ∧ t.dist ≠ none

/-- The name given last to process `k`. -/
def LastName (infos : List (Nat × String)) (k : Nat) (s : String) : Prop :=
  ∃ xs ys, infos = xs ++ (k, s) :: ys ∧ ∀ y ∈ ys, y.1 ≠ k

end Machin.World.Life.Spec
