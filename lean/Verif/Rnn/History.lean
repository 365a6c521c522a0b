import Verif.Rnn.Model
import Verif.Prio.Spec

/-! # Histories of a prioritized RNN buffer -/

namespace Machin.Rnn

open Replay Prio

/-- The buffer after a history of legal stores, samplings, sampling-and-update steps and clears; the list holds the
episodes stored since creation or the last clear (empty for a rejected store). Draws are strictly inside `(0, 1)`, and
updates go to the indexes just returned by a sampling from a tree of positive total weight. -/
inductive Hist {ι τ : Type} (conv : ι → Except Err τ) (norm : ℚ → ℚ) (pw : ℚ → ℚ → ℚ) (N L : Nat) (beta inc : ℚ) :
    List (List τ) → PBuffer τ → Prop
  | new : Hist conv norm pw N L beta inc [] (PBuffer.new τ N beta inc)
  | store {eps : List (List τ)} {b : PBuffer τ} (ep : List ι) (pr : Option (List ℚ)) (nd : Bool) :
      Hist conv norm pw N L beta inc eps b → ep.length ≤ N →
      (∀ ps, pr = some ps → ps.length = ep.length ∧ (ep.length < L → nd = true)) →
      Hist conv norm pw N L beta inc (eps ++ [Prio.Spec.accepted conv ep]) (storeEpisode conv norm L b ep pr nd).1
  | sample {eps : List (List τ)} {b : PBuffer τ} (draws : List ℚ) : Hist conv norm pw N L beta inc eps b →
      Hist conv norm pw N L beta inc eps (sampleBatch pw L b draws).1
  | train {eps : List (List τ)} {b : PBuffer τ} (draws : List ℚ) (n : Nat) (batch : List τ) (index : List Nat)
      (ws ps : List ℚ) : Hist conv norm pw N L beta inc eps b → (∀ u ∈ draws, 0 < u ∧ u < 1) →
      1 / 1000000 < b.tree.weightSum → (sampleBatch pw L b draws).2 = .ok (n, some (batch, index, ws)) →
      ps.length = index.length →
      Hist conv norm pw N L beta inc eps
        ((sampleBatch pw L b draws).1.updatePriority norm ps (index.map Int.ofNat)).1
  | clear {eps : List (List τ)} {b : PBuffer τ} : Hist conv norm pw N L beta inc eps b →
      Hist conv norm pw N L beta inc [] b.clear

end Machin.Rnn
