import Verif.Prio.Round
import Verif.Prio.RoundSpec
import Verif.Prio.TreeLemmas
import Mathlib.Tactic.Linarith
import Mathlib.Tactic.Ring

/-! # Lemmas on the priority tree with rounded arithmetic -/

namespace Machin.Prio

open Spec

/-! ### Consistency -/

/-- Parent `j` of level `l + 1` is the rounded sum of its children. -/
def GoodF (fl : ℚ → ℚ) (w : List ℚ) (d l j : Nat) : Prop := node w d (l + 1) j = fl (node w d l (2 * j) + node w d l (2 * j + 1))

/-- All parents are consistent, except possibly the parents of the nodes `S` of level `l`. -/
def ConsExF (fl : ℚ → ℚ) (w : List ℚ) (d l : Nat) (S : Nat → Prop) : Prop :=
  ∀ l' j, l' + 1 < d → j < levelSize d (l' + 1) → (l' = l → ∀ s, S s → s / 2 ≠ j) → GoodF fl w d l' j

/-- All parents are consistent. -/
def ConsF (fl : ℚ → ℚ) (w : List ℚ) (d : Nat) : Prop := ∀ l j, l + 1 < d → j < levelSize d (l + 1) → GoodF fl w d l j

variable {fl : ℚ → ℚ}

theorem ConsExF.top {w : List ℚ} {d l : Nat} {S : Nat → Prop} (h : ConsExF fl w d l S) (hl : d ≤ l + 1) : ConsF fl w d :=
  fun l' j h1 h2 => h l' j h1 h2 (fun e => by omega)

theorem ConsExF.leaves {w w' : List ℚ} {d : Nat} {S : Nat → Prop} (h : ConsF fl w d)
    (hsame : ∀ l j, l < d → j < levelSize d l → (l = 0 → ¬ S j) → node w' d l j = node w d l j) : ConsExF fl w' d 0 S := by
  intro l j hl hj hS
  have hg := h l j hl hj
  have hsz := levelSize_succ hl
  unfold GoodF at *
  rw [hsame (l + 1) j hl hj (by omega), hsame l (2 * j) (by omega) (by omega), hsame l (2 * j + 1) (by omega) (by omega)]
  · exact hg
  · intro e hs; exact hS e _ hs (by omega)
  · intro e hs; exact hS e _ hs (by omega)

theorem ConsExF.step {w w' : List ℚ} {d l : Nat} {S : Nat → Prop} (h : ConsExF fl w d l S)
    (hS : ∀ s, S s → s < levelSize d l) (hl : l + 1 < d)
    (hsame : ∀ l' j, l' < d → j < levelSize d l' → (l' = l + 1 → ¬ ∃ s, S s ∧ s / 2 = j) → node w' d l' j = node w d l' j)
    (hnew : ∀ s, S s → node w' d (l + 1) (s / 2) = fl (node w d l (2 * (s / 2)) + node w d l (2 * (s / 2) + 1))) :
    ConsExF fl w' d (l + 1) (fun j => ∃ s, S s ∧ s / 2 = j) := by
  intro l' j hl' hj hex
  have hsz := levelSize_succ hl'
  by_cases hc : l' = l ∧ ∃ s, S s ∧ s / 2 = j
  · obtain ⟨rfl, s, hs, rfl⟩ := hc
    unfold GoodF
    rw [hnew s hs, hsame l' (2 * (s / 2)) (by omega) (by omega) (by omega),
      hsame l' (2 * (s / 2) + 1) (by omega) (by omega) (by omega)]
  · have hg : GoodF fl w d l' j := by
      apply h l' j hl' hj
      intro e s hs e'
      exact hc ⟨e, s, hs, e'⟩
    unfold GoodF at *
    rw [hsame (l' + 1) j hl' hj, hsame l' (2 * j) (by omega) (by omega), hsame l' (2 * j + 1) (by omega) (by omega)]
    · exact hg
    · intro e ⟨s, hs, e'⟩
      exact hex e _ ⟨s, hs, e'⟩ (by omega)
    · intro e ⟨s, hs, e'⟩
      exact hex e _ ⟨s, hs, e'⟩ (by omega)
    · intro e ⟨s, hs, e'⟩
      exact hc ⟨by omega, s, hs, e'⟩

theorem climbBatchF_spec (d : Nat) (m : Nat) : ∀ (l : Nat) (needs : List Nat) (w : List ℚ), l + 1 + m = d →
    (∀ s ∈ needs, s < levelSize d l) → w.length = offset d d → ConsExF fl w d l (fun s => s ∈ needs) →
    (climbBatchF fl d (List.range' (l + 1) m) w needs).length = offset d d ∧
    ConsF fl (climbBatchF fl d (List.range' (l + 1) m) w needs) d ∧
    ∀ l' j, l' ≤ l → j < levelSize d l' → node (climbBatchF fl d (List.range' (l + 1) m) w needs) d l' j = node w d l' j := by
  induction m with
  | zero =>
    intro l needs w hd hneeds hlen hc
    exact ⟨hlen, hc.top (by omega), fun _ _ _ _ => rfl⟩
  | succ m ih =>
    intro l needs w hd hneeds hlen hc
    have hsz := levelSize_succ (d := d) (i := l) (by omega)
    simp only [List.range'_succ, climbBatchF]
    set ns := npUnique (needs.map (· / 2)) with hns
    have hmem : ∀ j, j ∈ ns ↔ ∃ s, s ∈ needs ∧ s / 2 = j := by
      intro j; rw [hns, mem_npUnique]; simp
    have hns_lt : ∀ j ∈ ns, j < levelSize d (l + 1) := by
      intro j hj
      obtain ⟨s, hs, rfl⟩ := (hmem j).1 hj
      have := hneeds s hs
      omega
    rw [Nat.add_sub_cancel]
    set ps := ns.map (fun j => (offset d (l + 1) + j,
      fl (w.getD (offset d l + j * 2) 0 + w.getD (offset d l + j * 2 + 1) 0))) with hps
    have hin : ∀ p ∈ ps, p.1 < w.length := by
      intro p hp
      rw [hps, List.mem_map] at hp
      obtain ⟨j, hj, rfl⟩ := hp
      rw [hlen]
      exact addr_lt (by omega) (hns_lt j hj)
    have hnew : ∀ j, j ∈ ns → node (assign w ps) d (l + 1) j = fl (node w d l (2 * j) + node w d l (2 * j + 1)) := by
      intro j hj
      unfold node
      rw [getD_assign ps w _ hin, hps,
        foldl_last_map ns (fun j => offset d (l + 1) + j)
          (fun j => fl (w.getD (offset d l + j * 2) 0 + w.getD (offset d l + j * 2 + 1) 0)) j hj (fun a _ e => by simpa using e)]
      rw [Nat.mul_comm j 2, Nat.add_assoc]
    have hsame : ∀ l' j, l' < d → j < levelSize d l' → (l' = l + 1 → j ∉ ns) →
        node (assign w ps) d l' j = node w d l' j := by
      intro l' j hl' hj hne
      unfold node
      apply getD_assign_not_mem hin
      rw [hps, List.map_map, List.mem_map]
      rintro ⟨a, ha, e⟩
      have := addr_inj (d := d) (l := l + 1) (j := a) (l' := l') (j' := j) (hns_lt a ha) hj e
      apply hne this.1.symm
      rw [← this.2]; exact ha
    have hc1 : ConsExF fl (assign w ps) d (l + 1) (fun s => s ∈ ns) := by
      have hstep := ConsExF.step (w' := assign w ps) (S := fun s => s ∈ needs) hc hneeds (by omega)
        (by
          intro l' j hl' hj hne
          apply hsame l' j hl' hj
          intro e hj'
          exact hne e ((hmem j).1 hj'))
        (by
          intro s hs
          exact hnew _ ((hmem _).2 ⟨s, hs, rfl⟩))
      intro l' j h1 h2 h3
      apply hstep l' j h1 h2
      intro e s hs
      exact h3 e s ((hmem s).2 hs)
    obtain ⟨h1, h2, h3⟩ := ih (l + 1) ns (assign w ps) (by omega) hns_lt (by simp [hlen]) hc1
    refine ⟨h1, h2, ?_⟩
    intro l' j hl' hj
    rw [h3 l' j (by omega) hj, hsame l' j (by omega) hj (by omega)]

/-- Well-formed tree with leaves `f`. -/
structure RInv (fl : ℚ → ℚ) (n : Nat) (f : Nat → ℚ) (t : WeightTree) : Prop where
  pos : 1 ≤ n
  size : t.size = n
  depth : t.depth = Nat.clog 2 n + 1
  len : t.weights.length = offset t.depth t.depth
  cons : ConsF fl t.weights t.depth
  leaf : ∀ k, k < levelSize t.depth 0 → t.weights.getD k 0 = f k
  pad : ∀ k, n ≤ k → f k = 0

theorem RInv.size_le {n : Nat} {f : Nat → ℚ} {t : WeightTree} (h : RInv fl n f t) : n ≤ levelSize t.depth 0 := by
  unfold levelSize
  rw [h.depth]
  exact Nat.le_pow_clog (by decide) _

theorem RInv.new (h0 : fl 0 = 0) {n : Nat} (hn : 1 ≤ n) : RInv fl n (fun _ => 0) (WeightTree.new n) := by
  refine ⟨hn, rfl, rfl, by simp [WeightTree.new], ?_, ?_, fun _ _ => rfl⟩
  · intro l j _ _
    simp only [GoodF, node, WeightTree.new, getD_replicate_zero, add_zero, h0]
  · intro k _
    simp only [WeightTree.new, getD_replicate_zero]

theorem updateLeafBatchF_spec {n : Nat} {f : Nat → ℚ} {t : WeightTree} (h : RInv fl n f t) (ps : List (Nat × ℚ))
    (hin : ∀ p ∈ ps, p.1 < n) :
    ∃ t', t.updateLeafBatchF fl (ps.map (·.2)) (ps.map fun p => (p.1 : Int)) = (t', .ok ()) ∧
      RInv fl n (fun i => ps.foldl (fun x p => if p.1 = i then p.2 else x) (f i)) t' := by
  by_cases h0 : ps = []
  · subst h0
    exact ⟨t, by simp [WeightTree.updateLeafBatchF], h⟩
  · have hle := h.size_le
    have hd : 1 ≤ t.depth := by rw [h.depth]; omega
    have hmap : (ps.map fun p => (p.1 : Int)).map Int.toNat = ps.map (·.1) := by
      rw [List.map_map]
      exact List.map_congr_left fun p _ => rfl
    have hzip : (ps.map (·.1)).zip (ps.map (·.2)) = ps := by
      induction ps with
      | nil => rfl
      | cons p ps ih =>
        by_cases hp : ps = []
        · subst hp; rfl
        · simp only [List.map_cons, List.zip_cons_cons]
          rw [ih (fun q hq => hin q (List.mem_cons_of_mem _ hq)) hp (by
            rw [List.map_map]
            exact List.map_congr_left fun p _ => rfl)]
    have hchk : ¬ ((∃ i ∈ ps.map (fun p => (p.1 : Int)), i ≥ (t.size : Int)) ∨ (∃ i ∈ ps.map (fun p => (p.1 : Int)), i < 0)) := by
      rintro (⟨i, hi, h1⟩ | ⟨i, hi, h1⟩)
      · obtain ⟨p, hp, rfl⟩ := List.mem_map.1 hi
        have := hin p hp
        have := h.size
        omega
      · obtain ⟨p, hp, rfl⟩ := List.mem_map.1 hi
        omega
    have hps : ∀ p ∈ ps, p.1 < t.weights.length := by
      intro p hp
      have h1 := hin p hp
      have := addr_lt (d := t.depth) (l := 0) (j := p.1) (by omega) (by omega)
      rw [h.len]
      simpa using this
    set w1 := assign t.weights ps with hw1
    have hsame1 : ∀ i, i ∉ ps.map (·.1) → w1.getD i 0 = t.weights.getD i 0 := fun i hi => getD_assign_not_mem hps hi
    have hc1 : ConsExF fl w1 t.depth 0 (fun s => s ∈ ps.map (·.1)) := by
      apply ConsExF.leaves h.cons
      intro l j hl hj hne
      unfold node
      apply hsame1
      intro hm
      obtain ⟨p, hp, e⟩ := List.mem_map.1 hm
      have h1 := hin p hp
      have := addr_inj (d := t.depth) (l := 0) (j := offset t.depth l + j) (l' := l) (j' := j) (by omega) hj (by simp)
      apply hne this.1.symm
      rw [← this.2]; exact hm
    obtain ⟨g1, g2, g3⟩ := climbBatchF_spec (fl := fl) t.depth (t.depth - 1) 0 (ps.map (·.1)) w1 (by omega)
      (fun s hs => by
        obtain ⟨p, hp, rfl⟩ := List.mem_map.1 hs
        have := hin p hp
        omega) (by simp [hw1, h.len]) hc1
    refine ⟨{ t with maxLeaf := max (npMax (ps.map (·.2))) t.maxLeaf,
                     weights := climbBatchF fl t.depth (List.range' 1 (t.depth - 1)) w1 (ps.map (·.1)) }, ?_, ?_⟩
    · have hl : ¬ ((ps.map (·.2)).length ≠ (ps.map fun p => (p.1 : Int)).length) := by simp
      have hl0 : ¬ (ps.map (·.2)).length = 0 := by simpa using h0
      simp only [WeightTree.updateLeafBatchF, hl, hl0, hchk, if_false, hmap, hzip, ← hw1]
    · refine ⟨h.pos, h.size, h.depth, g1, g2, ?_, ?_⟩
      · intro k hk
        have := g3 0 k (Nat.le_refl _) hk
        simp only [node, offset_zero, Nat.zero_add] at this
        show List.getD _ k 0 = _
        rw [this, getD_assign _ _ _ hps, h.leaf k hk]
      · intro k hk
        rw [foldl_last_of_not_mem, h.pad k hk]
        intro hm
        obtain ⟨p, hp, e⟩ := List.mem_map.1 hm
        have := hin p hp
        omega

theorem foldl_last (ps : List (Nat × ℚ)) (i : Nat) (x : ℚ) : ps.foldl (fun x p => if p.1 = i then p.2 else x) x =
    match ps.reverse.find? (fun p => p.1 = i) with
    | some p => p.2
    | none => x := by
  induction ps generalizing x with
  | nil => rfl
  | cons p ps ih =>
    rw [List.foldl_cons, ih, List.reverse_cons, List.find?_append]
    cases hf : ps.reverse.find? (fun p => p.1 = i) with
    | some q => simp
    | none =>
      by_cases hp : p.1 = i
      · simp [hp]
      · simp [hp]

theorem runF_spec {n : Nat} (ops : List (List (Nat × ℚ))) : ∀ {f : Nat → ℚ} {t : WeightTree}, RInv fl n f t →
    (∀ ps ∈ ops, ∀ p ∈ ps, p.1 < n) →
    ∃ t', runF fl t ops = .ok t' ∧ RInv fl n (fun i => ops.flatten.foldl (fun x p => if p.1 = i then p.2 else x) (f i)) t' := by
  induction ops with
  | nil => intro f t h _; exact ⟨t, rfl, h⟩
  | cons ps ops ih =>
    intro f t h hin
    obtain ⟨t1, e1, h1⟩ := updateLeafBatchF_spec h ps (hin ps List.mem_cons_self)
    obtain ⟨t2, e2, h2⟩ := ih h1 fun qs hq => hin qs (List.mem_cons_of_mem _ hq)
    refine ⟨t2, ?_, ?_⟩
    · rw [runF]
      simp only [e1, e2]
    · simpa [List.flatten_cons, List.foldl_append] using h2

theorem runF_written (h0 : fl 0 = 0) {n : Nat} (hn : 1 ≤ n) (ops : List (List (Nat × ℚ))) (hin : ∀ ps ∈ ops, ∀ p ∈ ps, p.1 < n) :
    ∃ t, runF fl (WeightTree.new n) ops = .ok t ∧ RInv fl n (written ops) t := by
  obtain ⟨t, e, h⟩ := runF_spec ops (RInv.new h0 hn) hin
  refine ⟨t, e, ?_⟩
  have : (fun i => ops.flatten.foldl (fun x p => if p.1 = i then p.2 else x) (0 : ℚ)) = written ops := by
    funext i
    rw [foldl_last]
    rfl
  rw [← this]
  exact h

/-! ### Descent -/

theorem Spec.Rounding.nonneg {u : ℚ} (hr : Rounding fl u) {x : ℚ} (hx : 0 ≤ x) : 0 ≤ fl x := by
  have := hr.mono 0 x hx
  rwa [hr.zero] at this

theorem Spec.Rounding.up {u : ℚ} (hr : Rounding fl u) {x : ℚ} (hx : 0 ≤ x) : fl x ≤ x + u * fl x := by
  have h1 := hr.err x
  rw [abs_of_nonneg (hr.nonneg hx)] at h1
  have := (abs_le.1 h1).2
  linarith

/-- Nodes are non-negative and results of the rounding. -/
theorem node_fix {u : ℚ} (hr : Rounding fl u) {w : List ℚ} {d : Nat} (hc : ConsF fl w d)
    (hl : ∀ k, k < levelSize d 0 → 0 ≤ w.getD k 0 ∧ fl (w.getD k 0) = w.getD k 0) :
    ∀ l j, l < d → j < levelSize d l → 0 ≤ node w d l j ∧ fl (node w d l j) = node w d l j := by
  intro l
  induction l with
  | zero =>
    intro j _ hj
    simpa [node] using hl j hj
  | succ l ih =>
    intro j hld hj
    have hsz := levelSize_succ hld
    have hg := hc l j hld hj
    unfold GoodF at hg
    rw [hg]
    have h1 := (ih (2 * j) (by omega) (by omega)).1
    have h2 := (ih (2 * j + 1) (by omega) (by omega)).1
    exact ⟨hr.nonneg (by linarith), hr.idem _⟩

/-- A node above empty leaves is 0. -/
theorem node_empty {u : ℚ} (hr : Rounding fl u) {w : List ℚ} {d m : Nat} (hc : ConsF fl w d)
    (hz : ∀ k, k < levelSize d 0 → m ≤ k → w.getD k 0 = 0) :
    ∀ l j, l < d → j < levelSize d l → m ≤ j * 2 ^ l → node w d l j = 0 := by
  intro l
  induction l with
  | zero =>
    intro j _ hj hm
    simpa [node] using hz j hj (by simpa using hm)
  | succ l ih =>
    intro j hld hj hm
    have hsz := levelSize_succ hld
    have hg := hc l j hld hj
    unfold GoodF at hg
    have e : j * 2 ^ (l + 1) = 2 * j * 2 ^ l := by rw [pow_succ]; ring
    have e2 : (2 * j + 1) * 2 ^ l = 2 * j * 2 ^ l + 2 ^ l := by ring
    rw [hg, ih (2 * j) (by omega) (by omega) (by omega), ih (2 * j + 1) (by omega) (by omega) (by rw [e] at hm; rw [e2]; exact Nat.le_trans hm (Nat.le_add_right _ _)), add_zero, hr.zero]

/-- The descent ends at one of the first `m` leaves if these are the filled ones and the query has enough distance from the top. -/
theorem descendF_filled {u S : ℚ} (hu : 0 ≤ u) (hr : Rounding fl u) {w : List ℚ} {d m : Nat} (hlen : w.length = offset d d)
    (hc : ConsF fl w d) (hl : ∀ k, k < levelSize d 0 → 0 ≤ w.getD k 0 ∧ fl (w.getD k 0) = w.getD k 0)
    (hz : ∀ k, k < levelSize d 0 → m ≤ k → w.getD k 0 = 0) :
    ∀ (l j : Nat) (q e : ℚ), l < d → j < levelSize d l → j * 2 ^ l < m → node w d l j ≤ S → fl q = q →
      ((j + 1) * 2 ^ l ≤ m ∨ q ≤ 0 ∨ (q ≤ node w d l j + e ∧ e + 2 * l * (u * S) ≤ 0)) →
      ∃ k, descendF fl d w (List.range l).reverse j q = .ok k ∧ k < m ∧ k < levelSize d 0 := by
  intro l
  induction l with
  | zero =>
    intro j q e _ hj hm _ _ _
    exact ⟨j, rfl, by simpa using hm, hj⟩
  | succ l ih =>
    intro j q e hld hj hm hS hq hcase
    have hsz := levelSize_succ hld
    have hg := hc l j hld hj
    unfold GoodF at hg
    have hL := node_fix hr hc hl l (2 * j) (by omega) (by omega)
    have hR := node_fix hr hc hl l (2 * j + 1) (by omega) (by omega)
    have hV := node_fix hr hc hl (l + 1) j hld hj
    have hLV : node w d l (2 * j) ≤ node w d (l + 1) j := by
      rw [hg, ← hL.2]
      apply hr.mono
      rw [hL.2]
      linarith [hR.1]
    have hRV : node w d l (2 * j + 1) ≤ node w d (l + 1) j := by
      rw [hg, ← hR.2]
      apply hr.mono
      rw [hR.2]
      linarith [hL.1]
    have e1 : j * 2 ^ (l + 1) = 2 * j * 2 ^ l := by rw [pow_succ]; ring
    have e2 : (2 * j + 1) * 2 ^ l = 2 * j * 2 ^ l + 2 ^ l := by ring
    have e3 : (j + 1) * 2 ^ (l + 1) = (2 * j + 1 + 1) * 2 ^ l := by rw [pow_succ]; ring
    have e4 : (2 * j + 1 + 1) * 2 ^ l = 2 * j * 2 ^ l + 2 ^ l + 2 ^ l := by ring
    have hp : 0 < 2 ^ l := Nat.pow_pos (by decide)
    have hrd : rd w (offset d l + j * 2) = .ok (node w d l (2 * j)) := by
      rw [Nat.mul_comm j 2]
      apply rd_ok
      rw [hlen]
      exact addr_lt (by omega) (by omega)
    have huS : 0 ≤ u * S := mul_nonneg hu (by linarith [hV.1])
    rw [List.range_succ, List.reverse_append, List.reverse_cons, List.reverse_nil, List.nil_append, List.singleton_append]
    simp only [descendF, hrd]
    by_cases hgt : q > node w d l (2 * j)
    · rw [if_pos hgt, Nat.mul_comm j 2]
      have hqn : ¬ q ≤ 0 := by linarith [hL.1]
      rcases hcase with hfull | hq0 | ⟨hqe, he⟩
      · exact ih (2 * j + 1) _ 0 (by omega) (by omega) (by rw [e3, e4] at hfull; rw [e2]; linarith) (by linarith) (hr.idem _)
          (.inl (by rw [← e3]; exact hfull))
      · exact absurd hq0 hqn
      · have hcast : ((l + 1 : Nat) : ℚ) = l + 1 := by push_cast; ring
        rw [hcast] at he
        have hl0 : (0 : ℚ) ≤ l := Nat.cast_nonneg l
        have hlu : 0 ≤ (l : ℚ) * (u * S) := mul_nonneg hl0 huS
        have he0 : e ≤ 0 := by nlinarith
        by_cases hmid : m ≤ (2 * j + 1) * 2 ^ l
        · have hR0 := node_empty hr hc hz l (2 * j + 1) (by omega) (by omega) hmid
          rw [hR0, add_zero, hL.2] at hg
          rw [hg] at hqe
          linarith
        · refine ih (2 * j + 1) _ (e + 2 * (u * S)) (by omega) (by omega) (Nat.lt_of_not_le hmid) (by linarith) (hr.idem _) (.inr (.inr ⟨?_, ?_⟩))
          · have hx : 0 ≤ q - node w d l (2 * j) := by linarith
            have h1 := hr.up hx
            have h2 : fl (q - node w d l (2 * j)) ≤ S := by
              have := hr.mono (q - node w d l (2 * j)) (node w d (l + 1) j) (by linarith [hL.1])
              rw [hV.2] at this
              linarith
            have h3 : u * fl (q - node w d l (2 * j)) ≤ u * S := mul_le_mul_of_nonneg_left h2 hu
            have h4 := hr.up (x := node w d l (2 * j) + node w d l (2 * j + 1)) (by linarith [hL.1, hR.1])
            rw [← hg] at h4
            have h5 : u * node w d (l + 1) j ≤ u * S := mul_le_mul_of_nonneg_left hS hu
            linarith
          · nlinarith
    · rw [if_neg hgt, Nat.mul_comm j 2]
      refine ih (2 * j) q e (by omega) (by omega) (by omega) (by linarith) hq ?_
      rcases hcase with hfull | hq0 | ⟨hqe, he⟩
      · exact .inl (by omega)
      · exact .inr (.inl hq0)
      · by_cases hmid : m ≤ (2 * j + 1) * 2 ^ l
        · have hR0 := node_empty hr hc hz l (2 * j + 1) (by omega) (by omega) hmid
          rw [hR0, add_zero, hL.2] at hg
          rw [hg] at hqe
          refine .inr (.inr ⟨hqe, ?_⟩)
          have hcast : ((l + 1 : Nat) : ℚ) = l + 1 := by push_cast; ring
          rw [hcast] at he
          nlinarith
        · exact .inl (by omega)

theorem RInv.root {n : Nat} {f : Nat → ℚ} {t : WeightTree} (h : RInv fl n f t) : t.weightSum = node t.weights t.depth (t.depth - 1) 0 := by
  have hd : 1 ≤ t.depth := by rw [h.depth]; omega
  have htop := offset_top t.depth
  have h1 := offset_add (d := t.depth) (i := t.depth - 1) (by omega)
  have e : t.depth - (t.depth - 1) = 1 := by omega
  rw [e] at h1
  have hl := h.len
  have e2 : offset t.depth (t.depth - 1) + 0 = t.weights.length - 1 := by omega
  unfold WeightTree.weightSum node
  rw [e2, List.getLastD_eq_getLast?, List.getLast?_eq_getElem?, List.getD_eq_getElem?_getD]

/-! ### Distance from the exact sums -/

/-- The exact sum of `c` leaves from `a` on. -/
def span (w : List ℚ) (a c : Nat) : ℚ := ((List.range c).map fun i => w.getD (a + i) 0).sum

theorem span_add (w : List ℚ) (a c e : Nat) : span w a (c + e) = span w a c + span w (a + c) e := by
  unfold span
  rw [List.range_add, List.map_append, List.sum_append, List.map_map]
  congr 2
  apply List.map_congr_left
  intro i _
  simp [Nat.add_assoc]

theorem span_nonneg {w : List ℚ} {N a c : Nat} (hw : ∀ k, k < N → 0 ≤ w.getD k 0) (h : a + c ≤ N) : 0 ≤ span w a c := by
  unfold span
  apply List.sum_nonneg
  intro x hx
  obtain ⟨i, hi, rfl⟩ := List.mem_map.1 hx
  have := List.mem_range.1 hi
  exact hw _ (by omega)

/-- A node is near the exact sum of the leaves below it. -/
theorem node_near {u : ℚ} (hu : 0 ≤ u) (hu1 : u ≤ 1) (hr : Rounding fl u) {w : List ℚ} {d : Nat} (hc : ConsF fl w d)
    (hl : ∀ k, k < levelSize d 0 → 0 ≤ w.getD k 0 ∧ fl (w.getD k 0) = w.getD k 0) :
    ∀ l j, l < d → j < levelSize d l → (1 - u) ^ l * node w d l j ≤ span w (j * 2 ^ l) (2 ^ l) ∧
      span w (j * 2 ^ l) (2 ^ l) ≤ (1 + u) ^ l * node w d l j := by
  intro l
  induction l with
  | zero => intro j _ _; simp [span, node]
  | succ l ih =>
    intro j hld hj
    have hsz := levelSize_succ hld
    have hg := hc l j hld hj
    unfold GoodF at hg
    obtain ⟨a1, a2⟩ := ih (2 * j) (by omega) (by omega)
    obtain ⟨b1, b2⟩ := ih (2 * j + 1) (by omega) (by omega)
    have hL := node_fix hr hc hl l (2 * j) (by omega) (by omega)
    have hR := node_fix hr hc hl l (2 * j + 1) (by omega) (by omega)
    have hV := node_fix hr hc hl (l + 1) j hld hj
    have e1 : j * 2 ^ (l + 1) = 2 * j * 2 ^ l := by rw [pow_succ]; ring
    have e2 : 2 ^ (l + 1) = 2 ^ l + 2 ^ l := by rw [pow_succ]; ring
    have e3 : 2 * j * 2 ^ l + 2 ^ l = (2 * j + 1) * 2 ^ l := by ring
    rw [e1, e2, span_add, e3]
    have herr := hr.err (node w d l (2 * j) + node w d l (2 * j + 1))
    rw [← hg, abs_of_nonneg hV.1] at herr
    obtain ⟨c1, c2⟩ := abs_le.1 herr
    have p1 : 0 ≤ (1 - u) ^ l := pow_nonneg (by linarith) l
    have p2 : 0 ≤ (1 + u) ^ l := pow_nonneg (by linarith) l
    constructor
    · have : (1 - u) * node w d (l + 1) j ≤ node w d l (2 * j) + node w d l (2 * j + 1) := by linarith
      have := mul_le_mul_of_nonneg_left this p1
      rw [pow_succ]
      linarith
    · have : node w d l (2 * j) + node w d l (2 * j + 1) ≤ (1 + u) * node w d (l + 1) j := by linarith
      have := mul_le_mul_of_nonneg_left this p2
      rw [pow_succ]
      linarith

theorem pow_pair {u : ℚ} (hu : 0 ≤ u) (hu1 : u ≤ 1) (l : Nat) : 2 ≤ (1 + u) ^ l + (1 - u) ^ l ∧ (1 - u) ^ l ≤ 1 ∧ 1 ≤ (1 + u) ^ l := by
  induction l with
  | zero => norm_num
  | succ l ih =>
    obtain ⟨h1, h2, h3⟩ := ih
    have h0 : 0 ≤ (1 - u) ^ l := pow_nonneg (by linarith) l
    rw [pow_succ, pow_succ]
    refine ⟨by nlinarith, by nlinarith, by nlinarith⟩

theorem node_abs {u : ℚ} (hu : 0 ≤ u) (hu1 : u ≤ 1) (hr : Rounding fl u) {w : List ℚ} {d L : Nat} {S : ℚ} (hc : ConsF fl w d)
    (hl : ∀ k, k < levelSize d 0 → 0 ≤ w.getD k 0 ∧ fl (w.getD k 0) = w.getD k 0) {l j : Nat} (hld : l < d) (hj : j < levelSize d l)
    (hlL : l ≤ L) (hS : node w d l j ≤ S) : |span w (j * 2 ^ l) (2 ^ l) - node w d l j| ≤ ((1 + u) ^ L - 1) * S := by
  obtain ⟨h1, h2⟩ := node_near hu hu1 hr hc hl l j hld hj
  obtain ⟨p1, p2, p3⟩ := pow_pair hu hu1 l
  have hV := (node_fix hr hc hl l j hld hj).1
  have hmono : (1 + u) ^ l ≤ (1 + u) ^ L := pow_le_pow_right₀ (by linarith) hlL
  have hb : ((1 + u) ^ l - 1) * node w d l j ≤ ((1 + u) ^ L - 1) * S := by
    apply mul_le_mul (by linarith) hS hV (by linarith)
  refine abs_le.2 ⟨?_, by linarith⟩
  have : (1 - ((1 + u) ^ l - 1)) * node w d l j ≤ (1 - u) ^ l * node w d l j := mul_le_mul_of_nonneg_right (by linarith) hV
  linarith

/-- The descent ends where the exact sums say, up to the slack. -/
theorem descendF_near {u S : ℚ} (hu : 0 ≤ u) (hu1 : u ≤ 1) (hr : Rounding fl u) {w : List ℚ} {d L : Nat} (hlen : w.length = offset d d)
    (hc : ConsF fl w d) (hl : ∀ k, k < levelSize d 0 → 0 ≤ w.getD k 0 ∧ fl (w.getD k 0) = w.getD k 0) (hS : fl S = S) :
    ∀ (l j : Nat) (q a : ℚ), l < d → l ≤ L → j < levelSize d l → node w d l j ≤ S → fl q = q → 0 ≤ q → q ≤ S → 0 ≤ a →
      q ≤ node w d l j + a →
      ∃ k, descendF fl d w (List.range l).reverse j q = .ok (j * 2 ^ l + k) ∧ k < 2 ^ l ∧
        span w (j * 2 ^ l) k - l * ((3 * u + ((1 + u) ^ L - 1)) * S) ≤ q ∧
        q ≤ span w (j * 2 ^ l) (k + 1) + a + l * ((3 * u + ((1 + u) ^ L - 1)) * S) := by
  intro l
  induction l with
  | zero =>
    intro j q a _ _ hj _ _ hq0 _ _ hqa
    refine ⟨0, by simp [descendF], by simp, by simpa [span] using hq0, ?_⟩
    simpa [span, node] using hqa
  | succ l ih =>
    intro j q a hld hlL hj hVS hq hq0 hqS ha hqa
    have hsz := levelSize_succ hld
    have hg := hc l j hld hj
    unfold GoodF at hg
    have hL := node_fix hr hc hl l (2 * j) (by omega) (by omega)
    have hR := node_fix hr hc hl l (2 * j + 1) (by omega) (by omega)
    have hV := node_fix hr hc hl (l + 1) j hld hj
    have hLV : node w d l (2 * j) ≤ node w d (l + 1) j := by
      rw [hg, ← hL.2]
      apply hr.mono
      rw [hL.2]
      linarith [hR.1]
    have hRV : node w d l (2 * j + 1) ≤ node w d (l + 1) j := by
      rw [hg, ← hR.2]
      apply hr.mono
      rw [hR.2]
      linarith [hL.1]
    have e1 : j * 2 ^ (l + 1) = 2 * j * 2 ^ l := by rw [pow_succ]; ring
    have e2 : 2 ^ (l + 1) = 2 ^ l + 2 ^ l := by rw [pow_succ]; ring
    have e3 : 2 * j * 2 ^ l + 2 ^ l = (2 * j + 1) * 2 ^ l := by ring
    have hrd : rd w (offset d l + j * 2) = .ok (node w d l (2 * j)) := by
      rw [Nat.mul_comm j 2]
      apply rd_ok
      rw [hlen]
      exact addr_lt (by omega) (by omega)
    have hS0 : 0 ≤ S := by linarith [hV.1]
    have huS : 0 ≤ u * S := mul_nonneg hu hS0
    have hpw := (pow_pair hu hu1 L).2.2
    have heS : 0 ≤ ((1 + u) ^ L - 1) * S := mul_nonneg (by linarith) hS0
    set c := (3 * u + ((1 + u) ^ L - 1)) * S with hcdef
    have hcv : c = 3 * (u * S) + ((1 + u) ^ L - 1) * S := by rw [hcdef]; ring
    have hcast : ((l + 1 : Nat) : ℚ) * c = l * c + c := by push_cast; ring
    rw [hcast]
    rw [List.range_succ, List.reverse_append, List.reverse_cons, List.reverse_nil, List.nil_append, List.singleton_append]
    simp only [descendF, hrd]
    by_cases hgt : q > node w d l (2 * j)
    · rw [if_pos hgt, Nat.mul_comm j 2]
      have hx : 0 ≤ q - node w d l (2 * j) := by linarith
      have h2 : fl (q - node w d l (2 * j)) ≤ S := by
        have := hr.mono (q - node w d l (2 * j)) S (by linarith [hL.1])
        rw [hS] at this
        exact this
      have herr := hr.err (q - node w d l (2 * j))
      rw [abs_of_nonneg (hr.nonneg hx)] at herr
      obtain ⟨r1, r2⟩ := abs_le.1 herr
      have h3 : u * fl (q - node w d l (2 * j)) ≤ u * S := mul_le_mul_of_nonneg_left h2 hu
      have h4 := hr.up (x := node w d l (2 * j) + node w d l (2 * j + 1)) (by linarith [hL.1, hR.1])
      rw [← hg] at h4
      have h5 : u * node w d (l + 1) j ≤ u * S := mul_le_mul_of_nonneg_left hVS hu
      obtain ⟨k, k1, k2, k3, k4⟩ := ih (2 * j + 1) (fl (q - node w d l (2 * j))) (a + 2 * (u * S)) (by omega) (by omega) (by omega)
        (by linarith) (hr.idem _) (hr.nonneg hx) h2 (by linarith) (by linarith)
      obtain ⟨s1, s2⟩ := abs_le.1 (node_abs hu hu1 hr hc hl (l := l) (j := 2 * j) (by omega) (by omega) (by omega : l ≤ L)
        (by linarith : _ ≤ S))
      refine ⟨2 ^ l + k, ?_, ?_, ?_, ?_⟩
      · rw [k1, e1, ← e3, Nat.add_assoc]
      · rw [e2]; omega
      · rw [e1, span_add, e3]
        linarith
      · rw [e1, Nat.add_assoc, span_add, e3]
        linarith
    · rw [if_neg hgt, Nat.mul_comm j 2]
      obtain ⟨k, k1, k2, k3, k4⟩ := ih (2 * j) q 0 (by omega) (by omega) (by omega) (by linarith) hq hq0 hqS (by linarith) (by linarith)
      refine ⟨k, ?_, ?_, ?_, ?_⟩
      · rw [k1, e1]
      · rw [e2]; omega
      · rw [e1]; linarith
      · rw [e1]; linarith

/-! ### The sampled index -/

theorem written_cases (ops : List (List (Nat × ℚ))) (i : Nat) : (∃ ps ∈ ops, ∃ p ∈ ps, p.1 = i ∧ written ops i = p.2) ∨
    ((¬ ∃ ps ∈ ops, ∃ p ∈ ps, p.1 = i) ∧ written ops i = 0) := by
  unfold written
  cases hf : ops.flatten.reverse.find? (fun p => p.1 = i) with
  | some p =>
    left
    have h1 := List.find?_some hf
    have h2 := List.mem_of_find?_eq_some hf
    rw [List.mem_reverse, List.mem_flatten] at h2
    obtain ⟨ps, hps, hp⟩ := h2
    exact ⟨ps, hps, p, hp, by simpa using h1, rfl⟩
  | none =>
    right
    refine ⟨?_, rfl⟩
    rintro ⟨ps, hps, p, hp, e⟩
    have := List.find?_eq_none.1 hf p (by rw [List.mem_reverse, List.mem_flatten]; exact ⟨ps, hps, hp⟩)
    simp [e] at this

theorem Spec.Filled.written_pos {n m : Nat} {ops : List (List (Nat × ℚ))} (h : Filled fl n m ops) {i : Nat} (hi : i < m) :
    0 < written ops i := by
  rcases written_cases ops i with ⟨ps, h1, p, h2, _, h4⟩ | ⟨h1, _⟩
  · rw [h4]; exact h.pos ps h1 p h2
  · exact absurd ((h.first i).2 hi) h1

theorem Spec.Filled.written_zero {n m : Nat} {ops : List (List (Nat × ℚ))} (h : Filled fl n m ops) {i : Nat} (hi : m ≤ i) :
    written ops i = 0 := by
  rcases written_cases ops i with ⟨ps, h1, p, h2, h3, _⟩ | ⟨_, h2⟩
  · have := (h.first i).1 ⟨ps, h1, p, h2, h3⟩
    omega
  · exact h2

theorem Spec.Filled.le {n m : Nat} {ops : List (List (Nat × ℚ))} (h : Filled fl n m ops) : m ≤ n := by
  have := h.some
  obtain ⟨ps, h1, p, h2, h3⟩ := (h.first (m - 1)).2 (by omega)
  have := h.legal ps h1 p h2
  omega

theorem leaf_ok {u : ℚ} (hr : Rounding fl u) {n : Nat} {ops : List (List (Nat × ℚ))} {t : WeightTree} (h : RInv fl n (written ops) t)
    (hp : ∀ ps ∈ ops, ∀ p ∈ ps, 0 ≤ p.2) (hk : ∀ ps ∈ ops, ∀ p ∈ ps, fl p.2 = p.2) :
    ∀ k, k < levelSize t.depth 0 → 0 ≤ t.weights.getD k 0 ∧ fl (t.weights.getD k 0) = t.weights.getD k 0 := by
  intro k hk'
  rw [h.leaf k hk']
  rcases written_cases ops k with ⟨ps, h1, p, h2, _, h4⟩ | ⟨_, h2⟩
  · rw [h4]; exact ⟨hp ps h1 p h2, hk ps h1 p h2⟩
  · rw [h2]; exact ⟨le_refl _, hr.zero⟩

theorem RInv.root_fix {u : ℚ} (hr : Rounding fl u) {n : Nat} {f : Nat → ℚ} {t : WeightTree} (h : RInv fl n f t)
    (hl : ∀ k, k < levelSize t.depth 0 → 0 ≤ t.weights.getD k 0 ∧ fl (t.weights.getD k 0) = t.weights.getD k 0) :
    0 ≤ t.weightSum ∧ fl t.weightSum = t.weightSum := by
  have hd : 1 ≤ t.depth := by rw [h.depth]; omega
  rw [h.root]
  exact node_fix hr h.cons hl _ _ (by omega) (by unfold levelSize; exact Nat.pow_pos (by decide))

/-- A query is kept by the rounding, not negative, and either 0 or at most the rounded distance below the sum. -/
theorem queryF_spec {u : ℚ} (hr : Rounding fl u) {S : ℚ} (hS0 : 0 ≤ S) (hS : fl S = S) (hu : 0 ≤ u) (n i : Nat) (r : ℚ) :
    fl (queryF fl S n i r) = queryF fl S n i r ∧ 0 ≤ queryF fl S n i r ∧ queryF fl S n i r ≤ S ∧
    (queryF fl S n i r ≤ 0 ∨ queryF fl S n i r ≤ S + (u * S - fl (1 / 1000000))) := by
  have hd : 0 ≤ fl (1 / 1000000) := hr.nonneg (by norm_num)
  have hmx : ∀ a b : ℚ, fl a = a → fl b = b → fl (max a b) = max a b := by
    intro a b ha hb
    rcases le_total a b with h | h
    · rw [max_eq_right h, hb]
    · rw [max_eq_left h, ha]
  have hmn : ∀ a b : ℚ, fl a = a → fl b = b → fl (min a b) = min a b := by
    intro a b ha hb
    rcases le_total a b with h | h
    · rw [min_eq_left h, ha]
    · rw [min_eq_right h, hb]
  have hle : fl (S - fl (1 / 1000000)) ≤ S := by
    have := hr.mono (S - fl (1 / 1000000)) S (by linarith)
    rwa [hS] at this
  unfold queryF npClip
  simp only
  refine ⟨hmn _ _ (hmx _ _ (hr.idem _) hr.zero) (hmx _ _ (hr.idem _) hr.zero), le_min (le_max_right _ _) (le_max_right _ _),
    le_trans (min_le_right _ _) (max_le hle hS0), ?_⟩
  rcases le_total (fl (S - fl (1 / 1000000))) 0 with h | h
  · left
    refine le_trans (min_le_right _ _) ?_
    rw [max_eq_right h]
  · right
    refine le_trans (min_le_right _ _) ?_
    rw [max_eq_left h]
    rcases le_total 0 (S - fl (1 / 1000000)) with h2 | h2
    · have h3 := hr.up h2
      have h4 : u * fl (S - fl (1 / 1000000)) ≤ u * S := mul_le_mul_of_nonneg_left hle hu
      linarith
    · have h3 := hr.mono _ _ h2
      rw [hr.zero] at h3
      have h5 : fl (S - fl (1 / 1000000)) = 0 := le_antisymm h3 h
      have h6 := hr.err (S - fl (1 / 1000000))
      rw [h5] at h6
      simp only [abs_zero, mul_zero, zero_sub, abs_neg] at h6
      have h7 := abs_eq_zero.1 (le_antisymm h6 (abs_nonneg _))
      rw [h5]
      have : 0 ≤ u * S := mul_nonneg hu hS0
      linarith

theorem find_filled {u : ℚ} (hu : 0 ≤ u) (hr : Rounding fl u) {n m : Nat} {ops : List (List (Nat × ℚ))} {t : WeightTree}
    (h : RInv fl n (written ops) t) (hf : Filled fl n m ops)
    (hcond : (2 * Nat.clog 2 n + 1) * (u * t.weightSum) ≤ fl (1 / 1000000)) (b i : Nat) (r : ℚ) :
    ∃ k, t.findOneF fl (queryF fl t.weightSum b i r) = .ok k ∧ k < m := by
  have hl := leaf_ok hr h (fun ps h1 p h2 => (hf.pos ps h1 p h2).le) hf.kept
  obtain ⟨hS0, hS⟩ := h.root_fix hr hl
  obtain ⟨q1, q2, q3, q4⟩ := queryF_spec hr hS0 hS hu b i r
  have hd : 1 ≤ t.depth := by rw [h.depth]; omega
  have hdl : t.depth - 1 = Nat.clog 2 n := by rw [h.depth]; omega
  obtain ⟨k, k1, k2, _⟩ := descendF_filled (S := t.weightSum) hu hr h.len h.cons hl
    (m := m) (fun k hk hm => by rw [h.leaf k hk]; exact hf.written_zero hm) (t.depth - 1) 0 _ (u * t.weightSum - fl (1 / 1000000))
    (by omega) (by unfold levelSize; exact Nat.pow_pos (by decide)) (by rw [Nat.zero_mul]; exact hf.some) (by rw [h.root]) q1
    (by
      rcases q4 with q4 | q4
      · exact .inr (.inl q4)
      · refine .inr (.inr ⟨by rw [← h.root]; exact q4, ?_⟩)
        rw [hdl]
        linarith)
  refine ⟨k, ?_, k2⟩
  have := hf.le
  have hsz := h.size
  simp only [WeightTree.findOneF, k1]
  rw [Nat.min_eq_left (by omega)]

theorem span_below {n : Nat} {ops : List (List (Nat × ℚ))} {t : WeightTree} (h : RInv fl n (written ops) t) {k : Nat}
    (hk : k ≤ levelSize t.depth 0) : span t.weights 0 k = below ops k := by
  unfold span below
  congr 1
  apply List.map_congr_left
  intro i hi
  have := List.mem_range.1 hi
  rw [Nat.zero_add, h.leaf i (by omega)]

theorem below_add (ops : List (List (Nat × ℚ))) (a c : Nat) : below ops (a + c) = below ops a + ((List.range c).map fun i => written ops (a + i)).sum := by
  unfold below
  rw [List.range_add, List.map_append, List.sum_append, List.map_map]
  rfl

theorem find_near {u : ℚ} (hu : 0 ≤ u) (hu1 : u ≤ 1) (hr : Rounding fl u) {n : Nat} {ops : List (List (Nat × ℚ))} {t : WeightTree}
    (h : RInv fl n (written ops) t) (hp : ∀ ps ∈ ops, ∀ p ∈ ps, 0 ≤ p.2) (hk : ∀ ps ∈ ops, ∀ p ∈ ps, fl p.2 = p.2)
    {q : ℚ} (hq : fl q = q) (hq0 : 0 ≤ q) (hqS : q ≤ t.weightSum) :
    ∃ k, t.findOneF fl q = .ok k ∧ k < n ∧ below ops k - slack u t.weightSum (Nat.clog 2 n) ≤ q ∧
      q ≤ below ops (k + 1) + slack u t.weightSum (Nat.clog 2 n) := by
  have hl := leaf_ok hr h hp hk
  obtain ⟨hS0, hS⟩ := h.root_fix hr hl
  have hd : 1 ≤ t.depth := by rw [h.depth]; omega
  have hdl : t.depth - 1 = Nat.clog 2 n := by rw [h.depth]; omega
  have hls : levelSize t.depth 0 = 2 ^ (t.depth - 1) := by unfold levelSize; rw [Nat.sub_zero]
  obtain ⟨k, k1, k2, k3, k4⟩ := descendF_near (S := t.weightSum) (L := Nat.clog 2 n) hu hu1 hr h.len h.cons hl hS (t.depth - 1) 0 q 0
    (by omega) (by omega) (by unfold levelSize; exact Nat.pow_pos (by decide)) (by rw [h.root]) hq hq0 hqS (le_refl _)
    (by rw [← h.root]; linarith)
  rw [Nat.zero_mul] at k1 k3 k4
  rw [Nat.zero_add] at k1
  rw [add_zero] at k4
  rw [span_below h (by omega), hdl] at k3 k4
  have hsz := h.size
  have hpos := h.pos
  refine ⟨min k (n - 1), by simp only [WeightTree.findOneF, k1, hsz], by omega, ?_⟩
  unfold slack
  by_cases hkn : k ≤ n - 1
  · rw [Nat.min_eq_left hkn]
    exact ⟨k3, k4⟩
  · rw [Nat.min_eq_right (by omega)]
    have hge : ∀ i, 0 ≤ written ops i := by
      intro i
      rcases written_cases ops i with ⟨ps, h1, p, h2, _, h4⟩ | ⟨_, h2⟩
      · rw [h4]; exact hp ps h1 p h2
      · rw [h2]
    have b1 : below ops (n - 1) ≤ below ops k := by
      have e : k = (n - 1) + (k - (n - 1)) := by omega
      rw [e, below_add]
      have : 0 ≤ ((List.range (k - (n - 1))).map fun i => written ops (n - 1 + i)).sum := by
        apply List.sum_nonneg
        intro x hx
        obtain ⟨i, _, rfl⟩ := List.mem_map.1 hx
        exact hge _
      linarith
    have b2 : below ops (k + 1) = below ops (n - 1 + 1) := by
      have e : k + 1 = (n - 1 + 1) + (k + 1 - n) := by omega
      rw [e, below_add]
      have : ((List.range (k + 1 - n)).map fun i => written ops (n - 1 + 1 + i)).sum = 0 := by
        apply List.sum_eq_zero
        intro x hx
        obtain ⟨i, _, rfl⟩ := List.mem_map.1 hx
        exact h.pad _ (by omega)
      rw [this, add_zero]
    rw [b2] at k4
    exact ⟨by linarith, k4⟩

/-! ### Without rounding -/

theorem climbBatchF_id (d : Nat) (is : List Nat) : ∀ (w : List ℚ) (needs : List Nat), climbBatchF id d is w needs = climbBatch d is w needs := by
  induction is with
  | nil => intro w needs; rfl
  | cons i is ih => intro w needs; simp only [climbBatchF, climbBatch, id, ih]

theorem descendF_id (d : Nat) (w : List ℚ) (is : List Nat) : ∀ (j : Nat) (q : ℚ), descendF id d w is j q = descend d w is j q := by
  induction is with
  | nil => intro j q; rfl
  | cons i is ih =>
    intro j q
    simp only [descendF, descend, id]
    cases rd w (offset d i + j * 2) with
    | error e => rfl
    | ok left => by_cases hq : q > left <;> simp [hq, ih]

end Machin.Prio
