import Verif.Dist.HistoryAny
import Verif.Dist.Lemmas

/-! # Lemmas on all histories of a member -/

namespace Machin.Dist

open Replay Prio

theorem storeD_any {ι τ : Type} {N T : Nat} (h2 : 2 ≤ N) (conv : ι → Except Err τ) (norm : ℚ → ℚ) {b : DPBuffer τ}
    (h : DInv N T b) (ep : List ι) (pr : Option (List ℚ)) :
    DInv N (T + (Prio.Spec.accepted conv ep).length) (b.storeEpisode conv norm ep pr).1 ∧
    ∀ i, (b.storeEpisode conv norm ep pr).1.versions.getD i 0 =
      b.versions.getD i 0 + (Spec.marked N T (Prio.Spec.accepted conv ep).length (pr.map List.length)).count i := by
  obtain ⟨flat, hfl, hs⟩ := h.store
  by_cases h0 : ep = []
  · subst h0
    have e1 : b.storeEpisode conv norm [] pr = (b, .error .value) := rfl
    have e2 : Prio.Spec.accepted conv [] = [] := rfl
    rw [e1, e2]
    refine ⟨h, fun i => ?_⟩
    cases pr <;> simp [Spec.marked, Spec.written]
  · cases hc : ep.mapM conv with
    | error e =>
      have e1 : b.storeEpisode conv norm ep pr =
          ({ b with base := { b.base with buf := { b.base.buf with counter := b.base.buf.counter + 1 } } }, .error e) := by
        simp only [DPBuffer.storeEpisode, storeEpisode_reject conv b.base.buf ep e h0 hc]
      have e2 : Prio.Spec.accepted conv ep = [] := by simp only [Prio.Spec.accepted, hc]
      rw [e1, e2]
      refine ⟨⟨h.store, h.maps.counter, h.tree, h.size, h.vlen⟩, fun i => ?_⟩
      cases pr <;> simp [Spec.marked, Spec.written]
    | ok ys =>
      have hlen := mapM_length conv ep ys hc
      have e2 : Prio.Spec.accepted conv ep = ys := by simp only [Prio.Spec.accepted, hc]
      rw [e2]
      by_cases hlong : N < ys.length
      · obtain ⟨s', k1, k2⟩ := storeEpisode_tooLong hs hlong
        have e1 : b.storeEpisode conv norm ep pr = ({ b with base := { b.base with buf :=
            { b.base.buf with counter := b.base.buf.counter + 1, storage := s' } } }, .error .value) := by
          have hl : ep.length ≠ 0 := by simpa using h0
          simp only [DPBuffer.storeEpisode, Buffer.storeEpisode, if_neg hl, convAll_eq, hc, k1]
        rw [e1]
        refine ⟨⟨⟨flat ++ ys, by rw [List.length_append, hfl], k2⟩, ?_, h.tree, h.size, h.vlen⟩, fun i => ?_⟩
        · exact ⟨h.maps.counter.toEp, h.maps.counter.toHandles⟩
        · simp [Spec.marked, hlong]
      · obtain ⟨b', g1, g2, g3, g4, g5, -⟩ := storeEpisode_map conv hs h.maps ep ys h0 hc (by omega)
        have g5' : b'.eth.get? (b'.counter - 1) = some (slots N flat.length ys.length) := by rw [g4]; exact g5
        set todo : List (Option ℚ × Nat) := (match pr with
          | none => (slots N flat.length ys.length).map fun p => (none, p)
          | some ps => (ps.map some).zip (slots N flat.length ys.length)) with htodo
        have hsnd : todo.map (·.2) = Spec.marked N T ys.length (pr.map List.length) := by
          unfold Spec.marked
          rw [if_neg hlong]
          cases pr with
          | none => simp [htodo, Function.comp_def, written_eq, hfl]
          | some ps =>
            simp only [htodo, Option.map_some, written_eq, hfl]
            generalize slots N T ys.length = l
            clear htodo todo
            induction ps generalizing l with
            | nil => simp
            | cons p ps ih =>
              cases l with
              | nil => simp
              | cons x l => simpa using ih l
        have hin : ∀ p ∈ todo, p.2 < N := by
          intro p hp
          have hm : p.2 ∈ Spec.marked N T ys.length (pr.map List.length) := by
            rw [← hsnd]; exact List.mem_map.2 ⟨p, hp, rfl⟩
          have hw : p.2 ∈ Spec.written N T ys.length := by
            unfold Spec.marked at hm
            rw [if_neg hlong] at hm
            cases pr with
            | none => exact hm
            | some ps => exact List.mem_of_mem_take hm
          rw [written_eq] at hw
          obtain ⟨k, _, _, e⟩ := mem_slots.1 hw
          rw [← e]; exact Nat.mod_lt _ hs.pos
        obtain ⟨t', vs', k1, k2, k3, k4, k5, -⟩ := markLoop_ok norm h2 todo b.base.tree b.versions h.tree h.size h.vlen hin
        have e1 : b.storeEpisode conv norm ep pr = (⟨{ b.base with buf := b', tree := t' }, vs'⟩, .ok ()) := by
          cases pr with
          | none => simp only [htodo] at k1; simp only [DPBuffer.storeEpisode, g1, g5', k1]
          | some ps => simp only [htodo] at k1; simp only [DPBuffer.storeEpisode, g1, g5', k1]
        rw [e1]
        refine ⟨⟨⟨_, by rw [List.length_append, hfl], g2⟩, g3, k2, k3, k4⟩, ?_⟩
        intro i
        rw [← hsnd]
        exact k5 i

theorem clear_any {τ : Type} {N T : Nat} {b : DPBuffer τ} (h : DInv N T b) : DInv N 0 b.clear ∧ ∀ i, b.clear.versions.getD i 0 = 0 := by
  obtain ⟨flat, hfl, hs⟩ := h.store
  refine ⟨⟨⟨[], rfl, hs.clear⟩, h.maps.clear, ?_, ?_, by simp [DPBuffer.clear, h.vlen]⟩, fun i => ?_⟩
  · simp only [DPBuffer.clear, PBuffer.clear, hs.max]
    exact TInv.new hs.pos
  · simp [DPBuffer.clear, PBuffer.clear, hs.max, WeightTree.new]
  · simp only [DPBuffer.clear, List.getD_eq_getElem?_getD, List.getElem?_replicate]
    by_cases hi : i < b.versions.length <;> simp [hi]

/-- Along every history the version of a position is the number of its marks since the last clear. -/
theorem Counted.inv {ι τ : Type} {conv : ι → Except Err τ} {norm : ℚ → ℚ} {pw : ℚ → ℚ → ℚ} {N : Nat} (h2 : 2 ≤ N)
    {b₀ : DPBuffer τ} {V₀ : Nat → Nat} {T₀ : Nat} (h₀ : DInv N T₀ b₀) (hv : ∀ i, b₀.versions.getD i 0 = V₀ i) {V : Nat → Nat} {T : Nat}
    {b : DPBuffer τ} (h : Counted conv norm pw N b₀ V₀ T₀ V T b) : DInv N T b ∧ ∀ i, b.versions.getD i 0 = V i := by
  induction h with
  | refl => exact ⟨h₀, hv⟩
  | store ep pr _ ih =>
    obtain ⟨k1, k2⟩ := storeD_any h2 conv norm ih.1 ep pr
    exact ⟨k1, fun i => by rw [k2 i, ih.2 i]⟩
  | sample draws all _ ih =>
    obtain ⟨c, hc⟩ := sampleService_state pw _ draws all
    rw [hc]
    exact ⟨⟨ih.1.store, ih.1.maps, ih.1.tree, ih.1.size, ih.1.vlen⟩, ih.2⟩
  | update ps is vs _ hp _ hin ih =>
    obtain ⟨k1, k2, -, -⟩ := updateService_ok norm ih.1 ps is vs hp hin
    exact ⟨k1, fun i => by rw [k2]; exact ih.2 i⟩
  | clear _ ih => exact clear_any ih.1

end Machin.Dist
