import Verif.Dist.History

/-! # All histories of calls on one member, with the number of marks of every position -/

namespace Machin.Dist

open Replay Prio

namespace Spec

/-- The positions marked by a store of `len` accepted transitions after `total` earlier ones: none if the episode is longer
than the ring, and with `k` given priorities only the first `k`. -/
def marked (N total len : Nat) (priorities : Option Nat) : List Nat :=
  if N < len then []
  else match priorities with
    | none => written N total len
    | some k => (written N total len).take k

end Spec

/-- `Counted ... b₀ V₀ T₀ V T b`: member state `b` follows `b₀` by any stores, samplings, priority updates and clears.
`V₀` and `V` count the marks of every position since the last clear, `T₀` and `T` the transitions stored since then. -/
inductive Counted {ι τ : Type} (conv : ι → Except Err τ) (norm : ℚ → ℚ) (pw : ℚ → ℚ → ℚ) (N : Nat) (b₀ : DPBuffer τ)
    (V₀ : Nat → Nat) (T₀ : Nat) : (Nat → Nat) → Nat → DPBuffer τ → Prop
  | refl : Counted conv norm pw N b₀ V₀ T₀ V₀ T₀ b₀
  | store {V : Nat → Nat} {T : Nat} {b : DPBuffer τ} (ep : List ι) (pr : Option (List ℚ)) :
      Counted conv norm pw N b₀ V₀ T₀ V T b →
      Counted conv norm pw N b₀ V₀ T₀
        (fun i => V i + (Spec.marked N T (Prio.Spec.accepted conv ep).length (pr.map List.length)).count i)
        (T + (Prio.Spec.accepted conv ep).length) (b.storeEpisode conv norm ep pr).1
  | sample {V : Nat → Nat} {T : Nat} {b : DPBuffer τ} (draws : List ℚ) (all : ℚ) :
      Counted conv norm pw N b₀ V₀ T₀ V T b → Counted conv norm pw N b₀ V₀ T₀ V T (b.sampleService pw draws all).1
  | update {V : Nat → Nat} {T : Nat} {b : DPBuffer τ} (ps : List ℚ) (is vs : List Nat) :
      Counted conv norm pw N b₀ V₀ T₀ V T b → ps.length = is.length → vs.length = is.length → (∀ i ∈ is, i < N) →
      Counted conv norm pw N b₀ V₀ T₀ V T (b.updateService norm ps is vs).1
  | clear {V : Nat → Nat} {T : Nat} {b : DPBuffer τ} :
      Counted conv norm pw N b₀ V₀ T₀ V T b → Counted conv norm pw N b₀ V₀ T₀ (fun _ => 0) 0 b.clear

end Machin.Dist
