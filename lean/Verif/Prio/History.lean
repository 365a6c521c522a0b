import Verif.Prio.Model
import Verif.Prio.Spec

/-! # Histories of calls, over which the properties quantify -/

namespace Machin.Prio

open Replay

/-- The call a specification operation stands for. -/
def applyOp (t : WeightTree) : Spec.Op → WeightTree × Except Err Unit
  | .leaf w i => t.updateLeaf w i
  | .batch ps => t.updateLeafBatch (ps.map (·.2)) (ps.map fun p => (p.1 : Int))
  | .all ws => t.updateAllLeaves ws

/-- A history of calls, none of which may raise. -/
def runOps (t : WeightTree) : List Spec.Op → Except Err WeightTree
  | [] => .ok t
  | op :: ops =>
    match applyOp t op with
    | (_, .error e) => .error e
    | (t', .ok ()) => runOps t' ops

/-- Histories of a prioritized buffer: stores (of at most `N` items, with matching priorities if any), priority updates
of stored positions, samplings and clears. The number counts the samplings from a non-empty buffer since the last
clear. -/
inductive Reach {ι τ : Type} (conv : ι → Except Err τ) (norm : ℚ → ℚ) (pw : ℚ → ℚ → ℚ) (N : Nat) (beta inc : ℚ) :
    Nat → PBuffer τ → Prop
  | new : Reach conv norm pw N beta inc 0 (PBuffer.new τ N beta inc)
  | store {k : Nat} {b : PBuffer τ} (ep : List ι) (pr : Option (List ℚ)) : Reach conv norm pw N beta inc k b →
      ep.length ≤ N → (∀ ps, pr = some ps → ps.length = ep.length) →
      Reach conv norm pw N beta inc k (b.storeEpisode conv norm ep pr).1
  | update {k : Nat} {b : PBuffer τ} (ps : List ℚ) (is : List Nat) : Reach conv norm pw N beta inc k b →
      ps.length = is.length → (∀ i ∈ is, i < b.buf.size) →
      Reach conv norm pw N beta inc k (b.updatePriority norm ps (is.map Int.ofNat)).1
  | sample {k : Nat} {b : PBuffer τ} (draws : List ℚ) : Reach conv norm pw N beta inc k b →
      (∀ u ∈ draws, 0 ≤ u ∧ u < 1) →
      Reach conv norm pw N beta inc (if draws = [] ∨ b.buf.size = 0 then k else k + 1) (b.sampleBatch pw draws).1
  | clear {k : Nat} {b : PBuffer τ} : Reach conv norm pw N beta inc k b → Reach conv norm pw N beta inc 0 b.clear

/-- The same histories, with the transitions stored since creation or the last clear, oldest first. -/
inductive Stored {ι τ : Type} (conv : ι → Except Err τ) (norm : ℚ → ℚ) (pw : ℚ → ℚ → ℚ) (N : Nat) (beta inc : ℚ) :
    List τ → PBuffer τ → Prop
  | new : Stored conv norm pw N beta inc [] (PBuffer.new τ N beta inc)
  | store {flat : List τ} {b : PBuffer τ} (ep : List ι) (pr : Option (List ℚ)) : Stored conv norm pw N beta inc flat b →
      ep.length ≤ N → (∀ ps, pr = some ps → ps.length = ep.length) →
      Stored conv norm pw N beta inc (flat ++ Spec.accepted conv ep) (b.storeEpisode conv norm ep pr).1
  | update {flat : List τ} {b : PBuffer τ} (ps : List ℚ) (is : List Nat) : Stored conv norm pw N beta inc flat b →
      ps.length = is.length → (∀ i ∈ is, i < b.buf.size) →
      Stored conv norm pw N beta inc flat (b.updatePriority norm ps (is.map Int.ofNat)).1
  | sample {flat : List τ} {b : PBuffer τ} (draws : List ℚ) : Stored conv norm pw N beta inc flat b →
      (∀ u ∈ draws, 0 ≤ u ∧ u < 1) → Stored conv norm pw N beta inc flat (b.sampleBatch pw draws).1
  | clear {flat : List τ} {b : PBuffer τ} : Stored conv norm pw N beta inc flat b →
      Stored conv norm pw N beta inc [] b.clear

end Machin.Prio
