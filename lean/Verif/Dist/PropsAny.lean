import Verif.Dist.LemmasAny
import Verif.Dist.Props

/-! # C16 for all histories -/

namespace Machin.Dist

open Replay Prio

/-- C16, along every history of stores (legal or not), samplings, updates and clears, before and after the sampling: the
service succeeds; a sampled entry gets the (last) priority sent for it exactly if it has as many marks since the last clear
as it had at the time of the sampling, and all other entries keep their priority. So an overwritten entry is hit only if it
was overwritten without a mark, or marked as often since a clear as before the sampling. -/
theorem C16_marks_partial {ι τ : Type} (conv : ι → Except Err τ) (norm : ℚ → ℚ) (pw : ℚ → ℚ → ℚ) (N : Nat)
    (beta inc : ℚ) (h2 : 2 ≤ N) {V₀ : Nat → Nat} {T₀ : Nat} {b₀ : DPBuffer τ}
    (h₀ : Counted conv norm pw N (DPBuffer.new τ N beta inc) (fun _ => 0) 0 V₀ T₀ b₀) (draws : List ℚ) (all : ℚ) (r : SampleRes τ)
    (hr : (b₀.sampleService pw draws all).2 = .ok r) {V : Nat → Nat} {T : Nat} {b : DPBuffer τ}
    (h : Counted conv norm pw N (b₀.sampleService pw draws all).1 V₀ T₀ V T b) (ps : List ℚ)
    (hp : ps.length = r.index.length) :
    let res := b.updateService norm ps r.index r.version
    res.2 = .ok () ∧
    (∀ i, i < N → (i ∉ r.index ∨ V i ≠ V₀ i) →
      res.1.base.tree.leafWeight [(i : Int)] = b.base.tree.leafWeight [(i : Int)]) ∧
    (∀ (j i : Nat) (p : ℚ), r.index[j]? = some i → ps[j]? = some p → V i = V₀ i → (∀ j', j < j' → r.index[j']? ≠ some i) →
      res.1.base.tree.leafWeight [(i : Int)] = .ok (.scalar (norm p))) := by
  intro res
  obtain ⟨hi₀, hV₀⟩ := h₀.inv h2 (DInv.new τ (by omega) beta inc) (fun i => by
    simp only [DPBuffer.new, List.getD_eq_getElem?_getD, List.getElem?_replicate]
    by_cases hi : i < N <;> simp [hi])
  obtain ⟨c, hc⟩ := sampleService_state pw b₀ draws all
  have hi₁ : DInv N T₀ (b₀.sampleService pw draws all).1 := by
    rw [hc]; exact ⟨hi₀.store, hi₀.maps, hi₀.tree, hi₀.size, hi₀.vlen⟩
  obtain ⟨hi, hV⟩ := h.inv h2 hi₁ (fun i => by rw [hc]; exact hV₀ i)
  obtain ⟨-, -, -, hver, hidx⟩ := sampleService_inv pw b₀ draws all r hr
  have hidx' : ∀ i ∈ r.index, i < N := by rw [← hi₀.vlen]; exact hidx
  obtain ⟨k1, -, k3, k4⟩ := updateService_ok norm hi ps r.index r.version hp hidx'
  have hmask : ((r.index.map fun i => b.versions.getD i 0).zip r.version).map (fun p => p.1 == p.2) =
      r.index.map (fun i => V i == V₀ i) := by
    rw [hver, show (fun i => b.versions.getD i 0) = V from funext hV, show (fun i => b₀.versions.getD i 0) = V₀ from funext hV₀]
    generalize r.index = l
    induction l with
    | nil => rfl
    | cons a l ih => simp only [List.map_cons, List.zip_cons_cons, ih]
  have hleaf : ∀ (t : WeightTree), TInv t → ∀ i, i < t.size →
      t.leafWeight [(i : Int)] = .ok (.scalar (t.weights.getD i 0)) := by
    intro t ht i hit
    exact leafWeight_ok ht [i] (by intro j hj; have : j = i := by simpa using hj
                                   omega)
  have hsz : (b.updateService norm ps r.index r.version).1.base.tree.size = N := k1.size
  refine ⟨k3, ?_, ?_⟩
  · intro i hiN hor
    rw [hleaf _ k1.tree i (by omega), hleaf _ hi.tree i (by rw [hi.size]; exact hiN), k4 i hiN, hmask,
      masked_zip norm _ _ _ hp, foldl_filtered norm (fun i => V i == V₀ i)]
    rcases hor with hni | hW
    · rw [foldl_not_mem _ _ _ _ (by rw [List.map_fst_zip (by omega)]; exact hni)]
      simp
    · rw [show (V i == V₀ i) = false by simpa using hW]; simp
  · intro j i p hj hjp hW hlast
    have hiN := hidx' i (List.mem_of_getElem? hj)
    rw [hleaf _ k1.tree i (by omega), k4 i hiN, hmask, masked_zip norm _ _ _ hp,
      foldl_filtered norm (fun i => V i == V₀ i), show (V i == V₀ i) = true by simpa using hW,
      if_pos rfl, foldl_last norm i _ _ _ j p hj hjp hlast hp]

/-- After the sampling of two transitions: a clear and two stores of two transitions each; positions 0 and 1 were marked
once before and once since the clear, so they are hit. -/
example : ∃ V T b, Counted Prio.exConv exNorm exPow 4 (exMember.sampleService exPow [1 / 2, 1 / 2] (3 / 100)).1
      (fun i => [1, 1].getD i 0) 2 V T b ∧ V 0 = 1 ∧ V 1 = 1 ∧ V 2 = 1 ∧ T = 4 :=
  ⟨_, _, _, Counted.store [5, 6] none (Counted.store [3, 4] (some [1, 1]) (Counted.clear Counted.refl)),
    by decide +kernel, by decide +kernel, by decide +kernel, by decide +kernel⟩

end Machin.Dist
