import Verif.Prio.TreeLemmas
import Verif.Prio.History
import Verif.Replay.MapLemmas

/-! # Helper lemmas: histories of tree operations, prioritized buffer -/

namespace Machin.Prio

open Replay

theorem foldl_last_eq_find (ps : List (Nat × ℚ)) (i : Nat) (x : ℚ) :
    ps.foldl (fun x p => if p.1 = i then p.2 else x) x =
      match ps.reverse.find? (fun p => p.1 = i) with | some p => p.2 | none => x := by
  induction ps generalizing x with
  | nil => rfl
  | cons p ps ih =>
    rw [List.foldl_cons, ih, List.reverse_cons, List.find?_append]
    cases h : ps.reverse.find? (fun p => p.1 = i) with
    | some q => simp
    | none =>
      by_cases e : p.1 = i
      · simp [e]
      · simp [e]

theorem npMax_ge (l : List ℚ) : ∀ x ∈ l, x ≤ npMax l := by
  induction l with
  | nil => simp
  | cons a l ih =>
    cases l with
    | nil => simp [npMax]
    | cons b l =>
      intro x hx
      simp only [npMax]
      rcases List.mem_cons.1 hx with rfl | hx
      · exact le_max_left _ _
      · exact le_trans (ih x hx) (le_max_right _ _)

theorem npMax_mem (l : List ℚ) (h : l ≠ []) : npMax l ∈ l := by
  induction l with
  | nil => exact absurd rfl h
  | cons a l ih =>
    cases l with
    | nil => simp [npMax]
    | cons b l =>
      simp only [npMax]
      rcases max_choice a (npMax (b :: l)) with h1 | h1
      · rw [h1]; simp
      · rw [h1]; exact List.mem_cons_of_mem _ (ih (by simp))

/-- The tree after a legal operation. -/
theorem applyOp_spec {t : WeightTree} (h : TInv t) (f : Nat → ℚ) (hf : ∀ i, i < t.size → t.weights.getD i 0 = f i)
    (op : Spec.Op) (hl : op.Legal t.size) :
    ∃ t', applyOp t op = (t', .ok ()) ∧ TInv t' ∧ t'.size = t.size ∧
      ∀ i, i < t.size → t'.weights.getD i 0 = Spec.write f op i := by
  cases op with
  | leaf w k =>
    obtain ⟨t', h1, h2, h3, -, h4⟩ := updateLeaf_spec h hl.2 w k hl.1
    refine ⟨t', h1, h2, h3, ?_⟩
    intro i hi
    rw [h4 i hi, hf i hi]; rfl
  | batch ps =>
    obtain ⟨t', h1, h2, h3, -, h4⟩ := updateLeafBatch_spec h (ps.map (·.2)) (ps.map (·.1)) (by simp) (by
      intro i hi
      obtain ⟨p, hp, rfl⟩ := List.mem_map.1 hi
      exact hl p hp)
    refine ⟨t', ?_, h2, h3, ?_⟩
    · rw [List.map_map] at h1
      exact h1
    · intro i hi
      have hz : (ps.map (·.1)).zip (ps.map (·.2)) = ps := by
        rw [List.zip_map']; simp
      rw [h4 i hi, hz, hf i hi, foldl_last_eq_find]; rfl
  | all ws =>
    obtain ⟨t', h1, h2, h3, -, h4⟩ := updateAllLeaves_spec h ws hl
    refine ⟨t', h1, h2, h3, ?_⟩
    intro i hi
    rw [h4 i hi]; rfl

theorem runOps_spec (ops : List Spec.Op) : ∀ (t : WeightTree) (f : Nat → ℚ), TInv t →
    (∀ i, i < t.size → t.weights.getD i 0 = f i) → (∀ op ∈ ops, op.Legal t.size) →
    ∃ t', runOps t ops = .ok t' ∧ TInv t' ∧ t'.size = t.size ∧
      ∀ i, i < t.size → t'.weights.getD i 0 = ops.foldl Spec.write f i := by
  induction ops with
  | nil => intro t f h hf _; exact ⟨t, rfl, h, rfl, hf⟩
  | cons op ops ih =>
    intro t f h hf hl
    obtain ⟨t1, h1, h2, h3, h4⟩ := applyOp_spec h f hf op (hl op (by simp))
    obtain ⟨t2, g1, g2, g3, g4⟩ := ih t1 (Spec.write f op) h2 (by rw [h3]; exact h4)
      (by rw [h3]; exact fun o ho => hl o (by simp [ho]))
    refine ⟨t2, by simp only [runOps, h1, g1], g2, by rw [g3, h3], ?_⟩
    rw [h3] at g4
    exact g4

theorem runOps_new {n : Nat} (hn : 1 ≤ n) (ops : List Spec.Op) (hl : ∀ op ∈ ops, op.Legal n) :
    ∃ t, runOps (WeightTree.new n) ops = .ok t ∧ TInv t ∧ t.size = n ∧
      ∀ i, i < n → t.weights.getD i 0 = Spec.leaves ops i :=
  runOps_spec ops (WeightTree.new n) (fun _ => 0) (TInv.new hn)
    (fun i _ => by simp only [WeightTree.new, getD_replicate_zero]) hl

/-- Reading leaves. -/
theorem rdAll_ok {w : List ℚ} (is : List Nat) (h : ∀ i ∈ is, i < w.length) :
    rdAll w is = .ok (is.map fun i => w.getD i 0) := by
  induction is with
  | nil => rfl
  | cons i is ih =>
    simp only [rdAll, rd_ok (h i (by simp)), ih (fun j hj => h j (by simp [hj])), List.map_cons]

theorem leafWeight_ok {t : WeightTree} (h : TInv t) (is : List Nat) (hi : ∀ i ∈ is, i < t.size) :
    t.leafWeight (is.map Int.ofNat) = .ok (shape (is.map fun i => t.weights.getD i 0)) := by
  have hchk : ¬ ((∃ i ∈ is.map Int.ofNat, i ≥ (t.size : Int)) ∨ (∃ i ∈ is.map Int.ofNat, i < 0)) := by
    rintro (⟨i, hi', h1⟩ | ⟨i, hi', h1⟩)
    · obtain ⟨j, hj, rfl⟩ := List.mem_map.1 hi'
      have := hi j hj
      simp only [Int.ofNat_eq_natCast] at h1
      omega
    · obtain ⟨j, hj, rfl⟩ := List.mem_map.1 hi'
      simp only [Int.ofNat_eq_natCast] at h1
      omega
  have hmap : (is.map Int.ofNat).map Int.toNat = is := by
    rw [List.map_map]
    have : Int.toNat ∘ Int.ofNat = id := rfl
    rw [this, List.map_id]
  simp only [WeightTree.leafWeight, hchk, if_false, hmap]
  rw [rdAll_ok is]
  intro i hi'
  have := hi i hi'
  exact h.leaf_lt (by have := h.size_le; omega)

@[simp] theorem flat_shape {α : Type} (l : List α) : (shape l).flat = l := by
  match l with
  | [] => rfl
  | [x] => rfl
  | x :: y :: l => rfl

/-- The leaf a query selects. -/
def pick (t : WeightTree) (q : ℚ) : Nat :=
  match t.findOne q with
  | .ok i => i
  | .error _ => 0

theorem pick_spec {t : WeightTree} (h : TInv t) (hnn : ∀ i, i < t.size → 0 ≤ t.weights.getD i 0) {q : ℚ} (hq : 0 ≤ q)
    (hq' : q ≤ t.weightSum) :
    t.findOne q = .ok (pick t q) ∧ pick t q < t.size ∧ (q = 0 → pick t q = 0) ∧
      (0 < q → prefixSum t.weights (pick t q) < q ∧ q ≤ prefixSum t.weights (pick t q + 1)) := by
  rcases hq.eq_or_lt with h0 | h0
  · subst h0
    have := findOne_zero h hnn
    have hp : pick t 0 = 0 := by simp [pick, this]
    refine ⟨by rw [hp]; exact this, by rw [hp]; exact h.pos, fun _ => hp, fun h1 => absurd h1 (lt_irrefl _)⟩
  · obtain ⟨i, h1, h2, h3, h4⟩ := findOne_spec h q h0 hq'
    have hp : pick t q = i := by simp [pick, h1]
    rw [hp]
    exact ⟨h1, h2, fun e => absurd e (ne_of_gt h0), fun _ => ⟨h3, h4⟩⟩

theorem pick_mono {t : WeightTree} (h : TInv t) (hnn : ∀ i, i < t.size → 0 ≤ t.weights.getD i 0) {q r : ℚ}
    (hq : 0 ≤ q) (hqr : q ≤ r) (hr : r ≤ t.weightSum) : pick t q ≤ pick t r := by
  obtain ⟨-, q1, q2, q3⟩ := pick_spec h hnn hq (hqr.trans hr)
  obtain ⟨-, r1, r2, r3⟩ := pick_spec h hnn (hq.trans hqr) hr
  rcases hq.eq_or_lt with h0 | h0
  · rw [q2 h0.symm]; omega
  · by_contra hlt
    have h1 := q3 h0
    have h2 := r3 (lt_of_lt_of_le h0 hqr)
    have := prefixSum_mono hnn (a := pick t r + 1) (b := pick t q) (by omega) (by omega)
    linarith [h1.1, h2.2]

theorem findAll_ok {t : WeightTree} (h : TInv t) (hnn : ∀ i, i < t.size → 0 ≤ t.weights.getD i 0) (qs : List ℚ)
    (hq : ∀ q ∈ qs, 0 ≤ q ∧ q ≤ t.weightSum) : t.findAll qs = .ok (qs.map (pick t)) := by
  induction qs with
  | nil => rfl
  | cons q qs ih =>
    have h1 := (pick_spec h hnn (hq q (by simp)).1 (hq q (by simp)).2).1
    simp only [WeightTree.findAll, h1, ih (fun q hq' => hq q (by simp [hq'])), List.map_cons]

/-- A selected leaf has positive weight when the query is positive. -/
theorem pick_pos {t : WeightTree} (h : TInv t) (hnn : ∀ i, i < t.size → 0 ≤ t.weights.getD i 0) {q : ℚ} (hq : 0 < q)
    (hq' : q ≤ t.weightSum) : 0 < t.weights.getD (pick t q) 0 := by
  have := (pick_spec h hnn hq.le hq').2.2.2 hq
  rw [prefixSum_succ] at this
  linarith [this.1, this.2]

/-! ### Queries -/

theorem npClip_mono {x y lo hi : ℚ} (h : x ≤ y) : npClip x lo hi ≤ npClip y lo hi :=
  min_le_min (max_le_max h le_rfl) le_rfl

theorem npClip_bounds {x hi : ℚ} (h : 0 ≤ hi) : 0 ≤ npClip x 0 hi ∧ npClip x 0 hi ≤ hi :=
  ⟨le_min (le_max_right _ _) h, min_le_right _ _⟩

theorem queries_bounds {s : ℚ} (hs : 0 ≤ s) (draws : List ℚ) : ∀ q ∈ queries s draws, 0 ≤ q ∧ q ≤ s := by
  intro q hq
  unfold queries at hq
  rw [List.mem_mapIdx] at hq
  obtain ⟨i, hi, rfl⟩ := hq
  have h1 : (0 : ℚ) ≤ max (s - 1 / 1000000) 0 := le_max_right _ _
  have h2 : max (s - 1 / 1000000) 0 ≤ s := by
    apply max_le _ hs
    have : (0 : ℚ) ≤ 1 / 1000000 := by norm_num
    linarith
  have := npClip_bounds (x := draws[i] * (s / draws.length) + i * (s / draws.length)) h1
  exact ⟨this.1, this.2.trans h2⟩

theorem queries_sorted {s : ℚ} (hs : 0 ≤ s) (draws : List ℚ) (hd : ∀ u ∈ draws, 0 ≤ u ∧ u < 1) :
    (queries s draws).Pairwise (· ≤ ·) := by
  rw [List.pairwise_iff_getElem]
  intro i j hi hj hij
  unfold queries at hi hj ⊢
  simp only [List.length_mapIdx] at hi hj
  simp only [List.getElem_mapIdx]
  apply npClip_mono
  have h1 := hd draws[i] (List.getElem_mem _)
  have h2 := hd draws[j] (List.getElem_mem _)
  have hseg : 0 ≤ s / (draws.length : ℚ) := div_nonneg hs (by positivity)
  have hij' : (i : ℚ) + 1 ≤ j := by exact_mod_cast hij
  have e1 : draws[i] * (s / draws.length) + i * (s / draws.length) = (draws[i] + i) * (s / draws.length) := by ring
  have e2 : draws[j] * (s / draws.length) + j * (s / draws.length) = (draws[j] + j) * (s / draws.length) := by ring
  rw [e1, e2]
  apply mul_le_mul_of_nonneg_right _ hseg
  linarith [h1.2, h2.1]

/-! ### The prioritized buffer -/

/-- Invariant of the prioritized buffer. -/
structure PInv {τ : Type} (N : Nat) (b : PBuffer τ) : Prop where
  store : ∃ flat, SInv N flat b.buf.storage
  maps : MapInv b.buf
  tree : TInv b.tree
  size : b.tree.size = N
  posw : ∀ i, i < b.buf.size → 0 < b.tree.weights.getD i 0
  zero : ∀ i, b.buf.size ≤ i → i < N → b.tree.weights.getD i 0 = 0

theorem PInv.size_le {τ : Type} {N : Nat} {b : PBuffer τ} (h : PInv N b) : b.buf.size ≤ N := by
  obtain ⟨flat, hs⟩ := h.store
  have := hs.len
  unfold Buffer.size Storage.len
  omega

theorem PInv.nonneg {τ : Type} {N : Nat} {b : PBuffer τ} (h : PInv N b) :
    ∀ i, i < b.tree.size → 0 ≤ b.tree.weights.getD i 0 := by
  intro i hi
  by_cases hs : i < b.buf.size
  · exact (h.posw i hs).le
  · rw [h.zero i (by omega) (by rw [← h.size]; exact hi)]

theorem PInv.sum_nonneg {τ : Type} {N : Nat} {b : PBuffer τ} (h : PInv N b) : 0 ≤ b.tree.weightSum := by
  rw [h.tree.weightSum_eq]
  apply Finset.sum_nonneg
  intro i hi
  exact h.nonneg i (Finset.mem_range.1 hi)

theorem PInv.new (τ : Type) {N : Nat} (hN : 1 ≤ N) (beta inc : ℚ) : PInv N (PBuffer.new τ N beta inc) :=
  ⟨⟨[], SInv.new τ hN⟩, MapInv.new τ N, TInv.new hN, rfl,
    by intro i hi; simp [PBuffer.new, Buffer.new, Buffer.size, Storage.len, Storage.new] at hi,
    fun i _ _ => by simp only [PBuffer.new, WeightTree.new, getD_replicate_zero]⟩

theorem PInv.clear {τ : Type} {N : Nat} {b : PBuffer τ} (h : PInv N b) : PInv N b.clear := by
  obtain ⟨flat, hs⟩ := h.store
  refine ⟨⟨[], hs.clear⟩, h.maps.clear, ?_, ?_, ?_, ?_⟩
  · show TInv (WeightTree.new b.buf.storage.maxSize)
    rw [hs.max]; exact TInv.new hs.pos
  · show b.buf.storage.maxSize = N
    exact hs.max
  · intro i hi
    simp [PBuffer.clear, Buffer.clear, Buffer.size, Storage.len, Storage.clear] at hi
  · intro i _ _
    simp only [PBuffer.clear, WeightTree.new, getD_replicate_zero]

/-- Batch update of the leaves of some positions with positive weights. -/
theorem batch_pos {t : WeightTree} (h : TInv t) (ws : List ℚ) (is : List Nat) (hlen : ws.length = is.length)
    (hin : ∀ i ∈ is, i < t.size) (hpos : ∀ w ∈ ws, 0 < w) :
    ∃ t', t.updateLeafBatch ws (is.map Int.ofNat) = (t', .ok ()) ∧ TInv t' ∧ t'.size = t.size ∧
      (∀ i ∈ is, 0 < t'.weights.getD i 0) ∧ ∀ i, i < t.size → i ∉ is → t'.weights.getD i 0 = t.weights.getD i 0 := by
  obtain ⟨t', h1, h2, h3, -, h4⟩ := updateLeafBatch_spec h ws is hlen hin
  refine ⟨t', h1, h2, h3, ?_, ?_⟩
  · intro i hi
    rw [h4 i (hin i hi)]
    have : ∀ (zs : List (Nat × ℚ)), i ∈ zs.map (·.1) → (∀ p ∈ zs, 0 < p.2) → ∀ x,
        0 < zs.foldl (fun x p => if p.1 = i then p.2 else x) x := by
      intro zs
      induction zs with
      | nil => intro hm; simp at hm
      | cons p zs ih =>
        intro hm hp x
        rw [List.foldl_cons]
        by_cases hz : i ∈ zs.map (·.1)
        · exact ih hz (fun q hq => hp q (by simp [hq])) _
        · have : p.1 = i := by
            simp only [List.map_cons, List.mem_cons] at hm
            rcases hm with hm | hm
            · exact hm.symm
            · exact absurd hm hz
          rw [if_pos this, foldl_last_of_not_mem _ _ _ hz]
          exact hp p (by simp)
    apply this
    · rw [List.map_fst_zip (by omega)]; exact hi
    · intro p hp; exact hpos _ (List.of_mem_zip hp).2
  · intro i hi hni
    rw [h4 i hi, foldl_last_of_not_mem]
    rw [List.map_fst_zip (by omega)]; exact hni

theorem storePrio_ok {ι τ : Type} {N : Nat} {conv : ι → Except Err τ} {norm : ℚ → ℚ} (hnorm : ∀ p, 0 < norm p)
    {b : PBuffer τ} (h : PInv N b) (ep : List ι) (pr : Option (List ℚ)) (hle : ep.length ≤ N)
    (hpr : ∀ ps, pr = some ps → ps.length = ep.length) :
    PInv N (b.storeEpisode conv norm ep pr).1 ∧ (b.storeEpisode conv norm ep pr).1.currBeta = b.currBeta ∧
      (b.storeEpisode conv norm ep pr).1.beta = b.beta ∧ (b.storeEpisode conv norm ep pr).1.betaInc = b.betaInc ∧
      (ep ≠ [] → (∃ ys, ep.mapM conv = .ok ys) → (b.storeEpisode conv norm ep pr).2 = .ok ()) := by
  obtain ⟨flat, hs⟩ := h.store
  by_cases h0 : ep = []
  · subst h0
    have e1 : b.storeEpisode conv norm [] pr = (b, .error .value) := rfl
    rw [e1]
    exact ⟨h, rfl, rfl, rfl, fun hc => absurd rfl hc⟩
  · cases hc : ep.mapM conv with
    | error e =>
      have e1 : b.storeEpisode conv norm ep pr
          = ({ b with buf := { b.buf with counter := b.buf.counter + 1 } }, .error e) := by
        simp only [PBuffer.storeEpisode, storeEpisode_reject conv b.buf ep e h0 hc]
      rw [e1]
      exact ⟨⟨h.store, h.maps.counter, h.tree, h.size, h.posw, h.zero⟩, rfl, rfl, rfl,
        fun _ ⟨ys, hys⟩ => by cases hys⟩
    | ok ys =>
      have hlen := mapM_length conv ep ys hc
      obtain ⟨b', g1, g2, g3, g4, g5, -⟩ := storeEpisode_map conv hs h.maps ep ys h0 hc hle
      have g5' : b'.eth.get? (b'.counter - 1) = some (slots N flat.length ys.length) := by
        rw [g4]; exact g5
      set ws := (match pr with
        | none => List.replicate (slots N flat.length ys.length).length (norm b.tree.leafMax)
        | some ps => ps.map norm) with hws
      have hwl : ws.length = (slots N flat.length ys.length).length := by
        cases pr with
        | none => simp [hws]
        | some ps => have := hpr ps rfl; simp [hws]; omega
      have hwpos : ∀ w ∈ ws, 0 < w := by
        intro w hw
        cases pr with
        | none => simp [hws] at hw; rw [hw.2]; exact hnorm _
        | some ps =>
          simp [hws] at hw
          obtain ⟨p, _, rfl⟩ := hw
          exact hnorm _
      have hin : ∀ i ∈ slots N flat.length ys.length, i < b.tree.size := by
        intro i hi
        obtain ⟨k, _, _, rfl⟩ := mem_slots.1 hi
        rw [h.size]; exact Nat.mod_lt _ hs.pos
      obtain ⟨t', k1, k2, k3, k4, k5⟩ := batch_pos h.tree ws _ hwl hin hwpos
      have e1 : b.storeEpisode conv norm ep pr = ({ b with buf := b', tree := t' }, .ok ()) := by
        cases pr with
        | none =>
          simp only [hws] at k1
          simp only [PBuffer.storeEpisode, g1, g5', k1]
        | some ps =>
          simp only [hws] at k1
          simp only [PBuffer.storeEpisode, g1, g5', k1]
      rw [e1]
      have hbs : b.buf.size = min N flat.length := hs.len
      have hbs' : b'.size = min N (flat.length + ys.length) := by
        have := g2.len; rw [List.length_append] at this; exact this
      refine ⟨⟨⟨_, g2⟩, g3, k2, by rw [← h.size]; exact k3, ?_, ?_⟩, rfl, rfl, rfl, fun _ _ => rfl⟩
      · intro i hi
        simp only at hi ⊢
        by_cases hm : i ∈ slots N flat.length ys.length
        · exact k4 i hm
        · rw [k5 i (by rw [h.size]; omega) hm]
          apply h.posw
          rw [hbs]
          by_contra hge
          apply hm
          rw [mem_slots]
          exact ⟨i, by omega, by omega, Nat.mod_eq_of_lt (by omega)⟩
      · intro i hi hiN
        simp only at hi ⊢
        rw [k5 i (by rw [h.size]; exact hiN), h.zero i (by omega) hiN]
        intro hm
        obtain ⟨k, hk1, hk2, hk3⟩ := mem_slots.1 hm
        rw [Nat.mod_eq_of_lt (by omega)] at hk3
        omega

theorem updatePrio_ok {τ : Type} {N : Nat} {norm : ℚ → ℚ} (hnorm : ∀ p, 0 < norm p) {b : PBuffer τ} (h : PInv N b)
    (ps : List ℚ) (is : List Nat) (hlen : ps.length = is.length) (hin : ∀ i ∈ is, i < b.buf.size) :
    PInv N (b.updatePriority norm ps (is.map Int.ofNat)).1 ∧
      (b.updatePriority norm ps (is.map Int.ofNat)).1.currBeta = b.currBeta ∧
      (b.updatePriority norm ps (is.map Int.ofNat)).1.beta = b.beta ∧
      (b.updatePriority norm ps (is.map Int.ofNat)).1.betaInc = b.betaInc := by
  have hle := h.size_le
  obtain ⟨t', k1, k2, k3, k4, k5⟩ := batch_pos h.tree (ps.map norm) is (by simp [hlen])
    (fun i hi => by have := hin i hi; rw [h.size]; omega)
    (fun w hw => by obtain ⟨p, _, rfl⟩ := List.mem_map.1 hw; exact hnorm p)
  have e1 : b.updatePriority norm ps (is.map Int.ofNat) = ({ b with tree := t' }, .ok ()) := by
    simp only [PBuffer.updatePriority, k1]
  rw [e1]
  refine ⟨⟨h.store, h.maps, k2, by rw [← h.size]; exact k3, ?_, ?_⟩, rfl, rfl, rfl⟩
  · intro i hi
    simp only at hi ⊢
    by_cases hm : i ∈ is
    · exact k4 i hm
    · rw [k5 i (by rw [h.size]; omega) hm]; exact h.posw i hi
  · intro i hi hiN
    simp only at hi ⊢
    rw [k5 i (by rw [h.size]; exact hiN), h.zero i hi hiN]
    intro hm
    have := hin i hm
    omega

/-- Sampling from a non-empty buffer succeeds up to the choice of indexes. -/
theorem sampleIndex_ok {τ : Type} {N : Nat} (pw : ℚ → ℚ → ℚ) {b : PBuffer τ} (h : PInv N b) (draws : List ℚ)
    (all : Option ℚ) :
    let is := (queries b.tree.weightSum draws).map (pick b.tree)
    b.sampleIndexAndWeight pw draws all =
      ({ b with currBeta := min 1 (b.currBeta + b.betaInc) },
       .ok (shape is, isWeights pw b.buf.storage.len (orSum all b.tree.weightSum) b.currBeta
          (is.map fun i => b.tree.weights.getD i 0))) := by
  intro is
  have hq := queries_bounds h.sum_nonneg draws
  have h1 : b.tree.findLeafIndex (queries b.tree.weightSum draws) = .ok (shape is) := by
    simp only [WeightTree.findLeafIndex, findAll_ok h.tree h.nonneg _ hq]
    rfl
  have h2 : b.tree.leafWeight (is.map Int.ofNat) = .ok (shape (is.map fun i => b.tree.weights.getD i 0)) := by
    apply leafWeight_ok h.tree
    intro i hi
    obtain ⟨q, hq', rfl⟩ := List.mem_map.1 hi
    exact (pick_spec h.tree h.nonneg (hq q hq').1 (hq q hq').2).2.1
  simp only [PBuffer.sampleIndexAndWeight, h1, flat_shape, h2]

/-- The sampled positions hold transitions. -/
theorem pick_stored {τ : Type} {N : Nat} {b : PBuffer τ} (h : PInv N b) (hne : 0 < b.buf.size) {q : ℚ} (hq : 0 ≤ q)
    (hq' : q ≤ b.tree.weightSum) : pick b.tree q < b.buf.size ∧ 0 < b.tree.weights.getD (pick b.tree q) 0 := by
  have hs := pick_spec h.tree h.nonneg hq hq'
  rcases hq.eq_or_lt with h0 | h0
  · rw [hs.2.2.1 h0.symm]
    exact ⟨hne, h.posw 0 hne⟩
  · have hp := pick_pos h.tree h.nonneg h0 hq'
    refine ⟨?_, hp⟩
    by_contra hge
    rw [h.zero _ (by omega) (by rw [← h.size]; exact hs.2.1)] at hp
    exact lt_irrefl _ hp

theorem fetch_stored {τ : Type} (b : Buffer τ) (is : List Nat) (h : ∀ i ∈ is, i < b.size) :
    ∃ xs : List τ, b.fetch is = .ok xs ∧ xs.map some = is.map (fun i => b.storage.data[i]?) := by
  have : ∃ xs : List τ, is.map (fun i => b.storage.data[i]?) = xs.map some := by
    induction is with
    | nil => exact ⟨[], rfl⟩
    | cons i is ih =>
      obtain ⟨xs, hx⟩ := ih (fun j hj => h j (by simp [hj]))
      have hi : i < b.storage.data.length := h i (by simp)
      exact ⟨b.storage.data[i] :: xs, by simp [hx, List.getElem?_eq_getElem hi]⟩
  obtain ⟨xs, hx⟩ := this
  exact ⟨xs, fetch_eq b is xs hx, hx.symm⟩

theorem sampleBatch_state {τ : Type} {N : Nat} (pw : ℚ → ℚ → ℚ) {b : PBuffer τ} (h : PInv N b) (draws : List ℚ) :
    (b.sampleBatch pw draws).1 = if draws = [] ∨ b.buf.size = 0 then b
      else { b with currBeta := min 1 (b.currBeta + b.betaInc) } := by
  have hi := sampleIndex_ok pw h draws none
  simp only at hi
  by_cases hc : draws = [] ∨ b.buf.size = 0
  · have hc' : draws.length = 0 ∨ b.buf.size = 0 := by simpa using hc
    simp only [PBuffer.sampleBatch, hc, hc', if_true]
  · have hc' : ¬ (draws.length = 0 ∨ b.buf.size = 0) := by simpa using hc
    simp only [PBuffer.sampleBatch, hc, hc', if_false, hi]
    split <;> rfl

theorem Reach.inv {ι τ : Type} {conv : ι → Except Err τ} {norm : ℚ → ℚ} {pw : ℚ → ℚ → ℚ} {N : Nat} {beta inc : ℚ}
    (hN : 1 ≤ N) (hnorm : ∀ p, 0 < norm p) {k : Nat} {b : PBuffer τ} (h : Reach conv norm pw N beta inc k b) :
    PInv N b ∧ b.beta = beta ∧ b.betaInc = inc := by
  induction h with
  | new => exact ⟨PInv.new τ hN beta inc, rfl, rfl⟩
  | store ep pr _ hle hpr ih =>
    have := storePrio_ok (conv := conv) hnorm ih.1 ep pr hle hpr
    exact ⟨this.1, by rw [this.2.2.1]; exact ih.2.1, by rw [this.2.2.2.1]; exact ih.2.2⟩
  | update ps is _ hlen hin ih =>
    have := updatePrio_ok hnorm ih.1 ps is hlen hin
    exact ⟨this.1, by rw [this.2.2.1]; exact ih.2.1, by rw [this.2.2.2]; exact ih.2.2⟩
  | sample draws _ _ ih =>
    rw [sampleBatch_state pw ih.1]
    split
    · exact ih
    · exact ⟨⟨ih.1.store, ih.1.maps, ih.1.tree, ih.1.size, ih.1.posw, ih.1.zero⟩, ih.2⟩
  | clear _ ih => exact ⟨ih.1.clear, ih.2⟩

theorem storePrio_buf {ι τ : Type} (conv : ι → Except Err τ) (norm : ℚ → ℚ) (b : PBuffer τ) (ep : List ι)
    (pr : Option (List ℚ)) : (b.storeEpisode conv norm ep pr).1.buf = (b.buf.storeEpisode conv ep).1 := by
  unfold PBuffer.storeEpisode
  split
  · rename_i h; rw [h]
  · rename_i h
    rw [h]
    simp only
    split <;> rfl

/-- Contents and episode maps of a buffer in which `flat` has been stored since creation or the last clear. -/
structure FInv {τ : Type} (N : Nat) (flat : List τ) (b : Buffer τ) : Prop where
  store : SInv N flat b.storage
  maps : MapInv b
  live : flat.length ≤ N → ∀ i, i < flat.length → ∃ e hs, b.eth.get? e = some hs ∧ i ∈ hs ∧ ∀ h ∈ hs, h < flat.length

theorem FInv.storeEpisode {ι τ : Type} {N : Nat} {flat : List τ} (conv : ι → Except Err τ) {b : Buffer τ}
    (h : FInv N flat b) (ep : List ι) (hle : ep.length ≤ N) :
    FInv N (flat ++ Spec.accepted conv ep) (b.storeEpisode conv ep).1 := by
  by_cases h0 : ep = []
  · subst h0
    have e1 : b.storeEpisode conv [] = (b, .error .value) := rfl
    have e2 : Spec.accepted conv [] = [] := rfl
    rw [e1, e2, List.append_nil]; exact h
  · cases hc : ep.mapM conv with
    | error e =>
      rw [storeEpisode_reject conv b ep e h0 hc]
      have e2 : Spec.accepted conv ep = [] := by simp only [Spec.accepted, hc]
      rw [e2, List.append_nil]
      exact ⟨h.store, h.maps.counter, h.live⟩
    | ok ys =>
      have e2 : Spec.accepted conv ep = ys := by simp only [Spec.accepted, hc]
      rw [e2]
      obtain ⟨b', g1, g2, g3, g4, g5, g6⟩ := storeEpisode_map conv h.store h.maps ep ys h0 hc hle
      rw [g1]
      refine ⟨g2, g3, ?_⟩
      intro hfit i hi
      rw [List.length_append] at hfit hi
      have hmem : ∀ k, k ∈ slots N flat.length ys.length → flat.length ≤ k ∧ k < flat.length + ys.length := by
        intro k hk
        obtain ⟨m, m1, m2, m3⟩ := mem_slots.1 hk
        rw [Nat.mod_eq_of_lt (by omega)] at m3
        omega
      by_cases hif : i < flat.length
      · obtain ⟨e, hs, h1, h2, h3⟩ := h.live (by omega) i hif
        refine ⟨e, hs, g6 e hs h1 ?_, h2, ?_⟩
        · intro k hk hk'
          have := (hmem k hk).1
          have := h3 k hk'
          omega
        · intro k hk
          rw [List.length_append]
          have := h3 k hk
          omega
      · refine ⟨_, _, g5, mem_slots.2 ⟨i, by omega, hi, Nat.mod_eq_of_lt (by omega)⟩, ?_⟩
        intro k hk
        rw [List.length_append]
        exact (hmem k hk).2

theorem Stored.inv {ι τ : Type} {conv : ι → Except Err τ} {norm : ℚ → ℚ} {pw : ℚ → ℚ → ℚ} {N : Nat} {beta inc : ℚ}
    (hN : 1 ≤ N) (hnorm : ∀ p, 0 < norm p) {flat : List τ} {b : PBuffer τ}
    (h : Stored conv norm pw N beta inc flat b) :
    PInv N b ∧ FInv N flat b.buf := by
  induction h with
  | new =>
    exact ⟨PInv.new τ hN beta inc, SInv.new τ hN, MapInv.new τ N, fun _ i hi => by simp at hi⟩
  | store ep pr _ hle hpr ih =>
    refine ⟨(storePrio_ok (conv := conv) hnorm ih.1 ep pr hle hpr).1, ?_⟩
    rw [storePrio_buf]
    exact ih.2.storeEpisode conv ep hle
  | update ps is _ hlen hin ih => exact ⟨(updatePrio_ok hnorm ih.1 ps is hlen hin).1, ih.2⟩
  | sample draws _ _ ih =>
    rw [sampleBatch_state pw ih.1]
    split
    · exact ih
    · exact ⟨⟨ih.1.store, ih.1.maps, ih.1.tree, ih.1.size, ih.1.posw, ih.1.zero⟩, ih.2⟩
  | clear _ ih => exact ⟨ih.1.clear, ih.2.store.clear, ih.2.maps.clear, fun _ i hi => by simp at hi⟩

end Machin.Prio
