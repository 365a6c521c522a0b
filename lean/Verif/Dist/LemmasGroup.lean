import Verif.Dist.ModelGroup
import Verif.Dist.Lemmas
import Verif.Prio.ShareLemmas

/-! # Lemmas on the members of a distributed prioritized buffer -/

namespace Machin.Dist

open Replay Prio

theorem markLoop_pos (norm : ℚ → ℚ) (hnorm : ∀ p, 0 < norm p) {N : Nat} (h2 : 2 ≤ N) : ∀ (todo : List (Option ℚ × Nat)) (t : WeightTree)
    (vs : List Nat), TInv t → t.size = N → vs.length = N → (∀ p ∈ todo, p.2 < N) →
    ∃ t' vs', markLoop norm todo t vs = (t', vs', .ok ()) ∧ TInv t' ∧ t'.size = N ∧ vs'.length = N ∧
      (∀ i, i ∈ todo.map (·.2) → 0 < t'.weights.getD i 0) ∧
      ∀ i, i < N → i ∉ todo.map (·.2) → t'.weights.getD i 0 = t.weights.getD i 0 := by
  intro todo
  induction todo with
  | nil => intro t vs h1 h2 h3 _; exact ⟨t, vs, rfl, h1, h2, h3, by simp, fun _ _ _ => rfl⟩
  | cons p todo ih =>
    obtain ⟨p, pos⟩ := p
    intro t vs ht hs hv hin
    have hpos : pos < N := hin (p, pos) (by simp)
    obtain ⟨t1, a1, a2, a3, -, a4⟩ := updateLeaf_spec ht (by omega) (norm (p.getD t.leafMax)) pos (by omega)
    obtain ⟨t', vs', b1, b2, b3, b4, b5, b6⟩ := ih t1 (vs.set pos (vs[pos]'(by omega) + 1)) a2 (by omega) (by simpa using hv)
      (fun q hq => hin q (by simp [hq]))
    refine ⟨t', vs', ?_, b2, b3, b4, ?_, ?_⟩
    · simp only [markLoop, a1, List.getElem?_eq_getElem (show pos < vs.length by omega), b1]
    · intro i hi
      by_cases hm : i ∈ todo.map (·.2)
      · exact b5 i hm
      · have e : i = pos := by
          simp only [List.map_cons, List.mem_cons] at hi
          rcases hi with hi | hi
          · exact hi
          · exact absurd hi hm
        subst e
        rw [b6 i hpos hm, a4 i (by omega), if_pos rfl]
        exact hnorm _
    · intro i hi hni
      simp only [List.map_cons, List.mem_cons, not_or] at hni
      rw [b6 i hi hni.2, a4 i (by omega), if_neg hni.1]

theorem storeD_pinv {ι τ : Type} {N : Nat} (h2 : 2 ≤ N) (conv : ι → Except Err τ) (norm : ℚ → ℚ) (hnorm : ∀ p, 0 < norm p) {b : DPBuffer τ}
    (h : PInv N b.base) (hv : b.versions.length = N) (ep : List ι) (pr : Option (List ℚ)) (hle : ep.length ≤ N)
    (hpr : ∀ ps, pr = some ps → ps.length = ep.length) :
    PInv N (b.storeEpisode conv norm ep pr).1.base ∧ (b.storeEpisode conv norm ep pr).1.versions.length = N := by
  obtain ⟨flat, hs⟩ := h.store
  by_cases h0 : ep = []
  · subst h0
    have e1 : b.storeEpisode conv norm [] pr = (b, .error .value) := rfl
    rw [e1]
    exact ⟨h, hv⟩
  · cases hc : ep.mapM conv with
    | error e =>
      have e1 : b.storeEpisode conv norm ep pr =
          ({ b with base := { b.base with buf := { b.base.buf with counter := b.base.buf.counter + 1 } } }, .error e) := by
        simp only [DPBuffer.storeEpisode, storeEpisode_reject conv b.base.buf ep e h0 hc]
      rw [e1]
      exact ⟨⟨h.store, h.maps.counter, h.tree, h.size, h.posw, h.zero⟩, hv⟩
    | ok ys =>
      have hlen := mapM_length conv ep ys hc
      obtain ⟨b', g1, g2, g3, g4, g5, -⟩ := storeEpisode_map conv hs h.maps ep ys h0 hc hle
      have g5' : b'.eth.get? (b'.counter - 1) = some (slots N flat.length ys.length) := by rw [g4]; exact g5
      set todo : List (Option ℚ × Nat) := (match pr with
        | none => (slots N flat.length ys.length).map fun p => (none, p)
        | some ps => (ps.map some).zip (slots N flat.length ys.length)) with htodo
      have hsnd : todo.map (·.2) = slots N flat.length ys.length := by
        cases pr with
        | none => simp [htodo, Function.comp_def]
        | some ps =>
          have := hpr ps rfl
          simp only [htodo]
          rw [List.map_snd_zip]
          simp; omega
      have hin : ∀ p ∈ todo, p.2 < N := by
        intro p hp
        have : p.2 ∈ slots N flat.length ys.length := by rw [← hsnd]; exact List.mem_map.2 ⟨p, hp, rfl⟩
        obtain ⟨k, _, _, e⟩ := mem_slots.1 this
        rw [← e]; exact Nat.mod_lt _ hs.pos
      obtain ⟨t', vs', k1, k2, k3, k4, k5, k6⟩ := markLoop_pos norm hnorm h2 todo b.base.tree b.versions h.tree h.size hv hin
      have e1 : b.storeEpisode conv norm ep pr = (⟨{ b.base with buf := b', tree := t' }, vs'⟩, .ok ()) := by
        cases pr with
        | none => simp only [htodo] at k1; simp only [DPBuffer.storeEpisode, g1, g5', k1]
        | some ps => simp only [htodo] at k1; simp only [DPBuffer.storeEpisode, g1, g5', k1]
      rw [e1]
      rw [hsnd] at k5 k6
      have hbs : b.base.buf.size = min N flat.length := hs.len
      have hbs' : b'.size = min N (flat.length + ys.length) := by
        have := g2.len; rw [List.length_append] at this; exact this
      refine ⟨⟨⟨_, g2⟩, g3, k2, k3, ?_, ?_⟩, k4⟩
      · intro i hi
        simp only at hi ⊢
        by_cases hm : i ∈ slots N flat.length ys.length
        · exact k5 i hm
        · rw [k6 i (by omega) hm]
          apply h.posw
          rw [hbs]
          by_contra hge
          apply hm
          rw [mem_slots]
          exact ⟨i, by omega, by omega, Nat.mod_eq_of_lt (by omega)⟩
      · intro i hi hiN
        simp only at hi ⊢
        rw [k6 i hiN, h.zero i (by omega) hiN]
        intro hm
        obtain ⟨k, hk1, hk2, hk3⟩ := mem_slots.1 hm
        rw [Nat.mod_eq_of_lt (by omega)] at hk3
        omega

theorem updateD_pinv {τ : Type} {N : Nat} (norm : ℚ → ℚ) (hnorm : ∀ p, 0 < norm p) {b : DPBuffer τ} (h : PInv N b.base) (hv : b.versions.length = N)
    (ps : List ℚ) (is vs : List Nat) (hp : ps.length = is.length) (hin : ∀ i ∈ is, i < b.base.buf.size) :
    PInv N (b.updateService norm ps is vs).1.base ∧ (b.updateService norm ps is vs).1.versions.length = N := by
  have hle := h.size_le
  have hvs := versionsAt_ok (vs := b.versions) is (by intro i hi; have := hin i hi; omega)
  set mask := ((is.map fun i => b.versions.getD i 0).zip vs).map fun p => p.1 == p.2 with hmask
  have hk := updatePrio_ok hnorm h (masked mask ps) (masked mask is) (masked_length mask ps is hp)
    (fun i hi => hin i (mem_of_masked _ _ hi))
  have e : (b.updateService norm ps is vs).1 = ⟨(b.base.updatePriority norm (masked mask ps) ((masked mask is).map Int.ofNat)).1, b.versions⟩ := by
    simp only [DPBuffer.updateService, hvs]
    rfl
  rw [e]
  exact ⟨hk.1, hv⟩

theorem DReach.inv {ι τ : Type} {conv : ι → Except Err τ} {norm : ℚ → ℚ} {pw : ℚ → ℚ → ℚ} {N : Nat} {beta inc : ℚ} (h2 : 2 ≤ N)
    (hnorm : ∀ p, 0 < norm p) {b : DPBuffer τ} (h : DReach conv norm pw N beta inc b) : PInv N b.base ∧ b.versions.length = N := by
  induction h with
  | new => exact ⟨PInv.new τ (by omega) beta inc, by simp [DPBuffer.new]⟩
  | store ep pr _ hle hpr ih => exact storeD_pinv h2 conv norm hnorm ih.1 ih.2 ep pr hle hpr
  | sample draws all _ ih =>
    obtain ⟨c, hc⟩ := sampleService_state pw _ draws all
    rw [hc]
    exact ⟨⟨ih.1.store, ih.1.maps, ih.1.tree, ih.1.size, ih.1.posw, ih.1.zero⟩, ih.2⟩
  | update ps is vs _ hp _ hin ih => exact updateD_pinv norm hnorm ih.1 ih.2 ps is vs hp hin
  | clear _ ih => exact ⟨ih.1.clear, by simp [DPBuffer.clear, ih.2]⟩

/-- A member that is asked for at least two transitions. -/
theorem service_pick {τ : Type} {N : Nat} (pw : ℚ → ℚ → ℚ) {b : DPBuffer τ} (h : PInv N b.base) (hv : b.versions.length = N) (hne : 0 < b.base.buf.size)
    (draws : List ℚ) (all : ℚ) (h2 : 2 ≤ draws.length) :
    ∃ batch version ws, (b.sampleService pw draws all).2 = .ok ⟨draws.length, batch, draws.mapIdx (fun j u =>
      pick b.base.tree (npClip (u * (b.base.tree.weightSum / draws.length) + j * (b.base.tree.weightSum / draws.length)) 0
        (max (b.base.tree.weightSum - 1 / 1000000) 0))), version, ws⟩ := by
  have hidx := sampleIndex_ok pw h draws (some all)
  simp only at hidx
  have hq := queries_bounds h.sum_nonneg draws
  have hqlen : (queries b.base.tree.weightSum draws).length = draws.length := by simp [queries]
  have hmap : (queries b.base.tree.weightSum draws).map (pick b.base.tree) = draws.mapIdx (fun j u =>
      pick b.base.tree (npClip (u * (b.base.tree.weightSum / draws.length) + j * (b.base.tree.weightSum / draws.length)) 0
        (max (b.base.tree.weightSum - 1 / 1000000) 0))) := by
    apply List.ext_getElem?
    intro j
    simp only [queries, List.getElem?_map, List.getElem?_mapIdx, Option.map_map]
    rfl
  rw [← hmap]
  set qs := queries b.base.tree.weightSum draws with hqs'
  have hst : ∀ i ∈ qs.map (pick b.base.tree), i < b.base.buf.size := by
    intro i hi
    obtain ⟨q, hq', rfl⟩ := List.mem_map.1 hi
    exact (pick_stored h hne (hq q hq').1 (hq q hq').2).1
  obtain ⟨xs, hx1, hx2⟩ := fetch_stored b.base.buf (qs.map (pick b.base.tree)) hst
  have hxl : xs.length = draws.length := by
    have := congrArg List.length hx2
    simpa [hqlen] using this
  have hc : ¬ (draws.length = 0 ∨ b.base.buf.size = 0) := by omega
  have hshape : shape (qs.map (pick b.base.tree)) = .array (qs.map (pick b.base.tree)) := by
    match hm : qs.map (pick b.base.tree) with
    | [] => rfl
    | [x] =>
      have := congrArg List.length hm
      simp [hqlen] at this
      omega
    | x :: y :: l => rfl
  have hver := versionsAt_ok (vs := b.versions) (qs.map (pick b.base.tree)) (by
    intro i hi
    have := hst i hi
    have := h.size_le
    omega)
  refine ⟨xs, (qs.map (pick b.base.tree)).map (fun i => b.versions.getD i 0), isWeights pw b.base.buf.storage.len (orSum (some all) b.base.tree.weightSum) b.base.currBeta
    ((qs.map (pick b.base.tree)).map fun i => b.base.tree.weights.getD i 0), ?_⟩
  simp only [DPBuffer.sampleService, hc, if_false, hidx, hshape, fetchIndex, Shaped.flat, hver]
  rw [show ({ b.base with currBeta := min 1 (b.base.currBeta + b.base.betaInc) } : PBuffer τ).buf = b.base.buf from rfl, hx1]
  simp only [hxl]

/-- A member that is asked for one. -/
theorem service_one {τ : Type} {N : Nat} (pw : ℚ → ℚ → ℚ) {b : DPBuffer τ} (h : PInv N b.base) (hv : b.versions.length = N) (hne : 0 < b.base.buf.size)
    (u all : ℚ) : (b.sampleService pw [u] all).2 = .error .type := by
  have hidx := sampleIndex_ok pw h [u] (some all)
  simp only at hidx
  have hq := queries_bounds h.sum_nonneg [u]
  obtain ⟨q, hqe⟩ : ∃ q, queries b.base.tree.weightSum [u] = [q] := ⟨_, rfl⟩
  rw [hqe] at hidx hq
  have hst : pick b.base.tree q < b.base.buf.size := (pick_stored h hne (hq q (by simp)).1 (hq q (by simp)).2).1
  have hver := versionsAt_ok (vs := b.versions) [pick b.base.tree q] (by
    intro i hi
    have := h.size_le
    obtain rfl : i = _ := by simpa using hi
    omega)
  have hc : ¬ (([u] : List ℚ).length = 0 ∨ b.base.buf.size = 0) := by simp; omega
  simp only [List.map_cons, List.map_nil] at hidx
  simp only [DPBuffer.sampleService, hc, if_false, hidx, shape, Shaped.flat, hver, fetchIndex]

theorem service_none {τ : Type} (pw : ℚ → ℚ → ℚ) (b : DPBuffer τ) (draws : List ℚ) (all : ℚ) (h : draws.length = 0 ∨ b.base.buf.size = 0) :
    (b.sampleService pw draws all).2 = .ok ⟨0, [], [], [], []⟩ := by
  simp only [DPBuffer.sampleService, h, if_true]

end Machin.Dist
