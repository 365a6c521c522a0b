import Verif.Dist.Model
import Verif.Dist.Spec

/-! # Histories of calls on one member -/

namespace Machin.Dist

open Replay Prio

/-- `Later ... b₀ T₀ W T b`: member state `b` follows `b₀` by some stores (of at most `N` items, with as many priorities
as items if any), samplings and priority updates, without a clear. `T₀` and `T` count the transitions stored; `W` lists
the positions written in between. -/
inductive Later {ι τ : Type} (conv : ι → Except Err τ) (norm : ℚ → ℚ) (pw : ℚ → ℚ → ℚ) (N : Nat) (b₀ : DPBuffer τ)
    (T₀ : Nat) : List Nat → Nat → DPBuffer τ → Prop
  | refl : Later conv norm pw N b₀ T₀ [] T₀ b₀
  | store {W : List Nat} {T : Nat} {b : DPBuffer τ} (ep : List ι) (pr : Option (List ℚ)) :
      Later conv norm pw N b₀ T₀ W T b → ep.length ≤ N → (∀ ps, pr = some ps → ps.length = ep.length) →
      Later conv norm pw N b₀ T₀ (W ++ Spec.written N T (Prio.Spec.accepted conv ep).length)
        (T + (Prio.Spec.accepted conv ep).length) (b.storeEpisode conv norm ep pr).1
  | sample {W : List Nat} {T : Nat} {b : DPBuffer τ} (draws : List ℚ) (all : ℚ) :
      Later conv norm pw N b₀ T₀ W T b → Later conv norm pw N b₀ T₀ W T (b.sampleService pw draws all).1
  | update {W : List Nat} {T : Nat} {b : DPBuffer τ} (ps : List ℚ) (is vs : List Nat) :
      Later conv norm pw N b₀ T₀ W T b → ps.length = is.length → vs.length = is.length → (∀ i ∈ is, i < N) →
      Later conv norm pw N b₀ T₀ W T (b.updateService norm ps is vs).1

/-- The same without restrictions on the stores, and with clears. A store writes the converted items into the ring even
if it is rejected for its length. -/
inductive LaterAny {ι τ : Type} (conv : ι → Except Err τ) (norm : ℚ → ℚ) (pw : ℚ → ℚ → ℚ) (N : Nat) (b₀ : DPBuffer τ)
    (T₀ : Nat) : List Nat → Nat → DPBuffer τ → Prop
  | refl : LaterAny conv norm pw N b₀ T₀ [] T₀ b₀
  | store {W : List Nat} {T : Nat} {b : DPBuffer τ} (ep : List ι) (pr : Option (List ℚ)) :
      LaterAny conv norm pw N b₀ T₀ W T b →
      LaterAny conv norm pw N b₀ T₀ (W ++ Spec.written N T (Prio.Spec.accepted conv ep).length)
        (T + (Prio.Spec.accepted conv ep).length) (b.storeEpisode conv norm ep pr).1
  | sample {W : List Nat} {T : Nat} {b : DPBuffer τ} (draws : List ℚ) (all : ℚ) :
      LaterAny conv norm pw N b₀ T₀ W T b → LaterAny conv norm pw N b₀ T₀ W T (b.sampleService pw draws all).1
  | update {W : List Nat} {T : Nat} {b : DPBuffer τ} (ps : List ℚ) (is vs : List Nat) :
      LaterAny conv norm pw N b₀ T₀ W T b → ps.length = is.length → vs.length = is.length → (∀ i ∈ is, i < N) →
      LaterAny conv norm pw N b₀ T₀ W T (b.updateService norm ps is vs).1
  | clear {W : List Nat} {T : Nat} {b : DPBuffer τ} :
      LaterAny conv norm pw N b₀ T₀ W T b → LaterAny conv norm pw N b₀ T₀ W 0 b.clear

end Machin.Dist
