import Verif.Dist.Model

/-! # Model of sampling from a distributed prioritized buffer: the whole call -/

namespace Machin.Dist

open Replay Prio

/-- `DistributedPrioritizedBuffer.sample_batch` (prioritized_buffer_d.py:204-266) without the post processing of the attributes. `draws j` are the
uniform draws of member `j`. The members do nothing else between the two rounds of calls (the weight sums at 220-224, `_weight_sum_service` at 278-280, and
the samples at 234-243). `none` stands for `0, None, None, None`. -/
def groupSample {τ : Type} (pw : ℚ → ℚ → ℚ) (ms : List (String × DPBuffer τ)) (batchSize : Nat) (draws : Nat → Nat → ℚ) :
    Except Err (Option (Collected τ)) :=
  if batchSize = 0 then .ok none
  else
    let weights := ms.map (·.2.base.tree.weightSum)
    let all := weights.sum + 1 / 1000000
    let ssize := sampleSizes weights batchSize
    match waitAll ((ms.zip ssize).mapIdx fun j p => (p.1.2.sampleService pw ((List.range p.2.toNat).map (draws j)) all).2) with
    | .error e => .error e
    | .ok rs =>
      let c := collect ((ms.map (·.1)).zip rs) ⟨0, [], [], []⟩
      if c.len = 0 then .ok none else .ok (some c)

/-- The states of one member: stores of episodes that fit with as many priorities as transitions if any, samplings, priority updates of positions that
hold transitions, clears. -/
inductive DReach {ι τ : Type} (conv : ι → Except Err τ) (norm : ℚ → ℚ) (pw : ℚ → ℚ → ℚ) (N : Nat) (beta inc : ℚ) : DPBuffer τ → Prop
  | new : DReach conv norm pw N beta inc (DPBuffer.new τ N beta inc)
  | store {b : DPBuffer τ} (ep : List ι) (pr : Option (List ℚ)) : DReach conv norm pw N beta inc b → ep.length ≤ N →
      (∀ ps, pr = some ps → ps.length = ep.length) → DReach conv norm pw N beta inc (b.storeEpisode conv norm ep pr).1
  | sample {b : DPBuffer τ} (draws : List ℚ) (all : ℚ) : DReach conv norm pw N beta inc b →
      DReach conv norm pw N beta inc (b.sampleService pw draws all).1
  | update {b : DPBuffer τ} (ps : List ℚ) (is vs : List Nat) : DReach conv norm pw N beta inc b → ps.length = is.length → vs.length = is.length →
      (∀ i ∈ is, i < b.base.buf.size) → DReach conv norm pw N beta inc (b.updateService norm ps is vs).1
  | clear {b : DPBuffer τ} : DReach conv norm pw N beta inc b → DReach conv norm pw N beta inc b.clear

end Machin.Dist
