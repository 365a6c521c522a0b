import Verif.Prio.ShareLemmas

/-! # Property C195: importance weights undo the priorities -/

namespace Machin.Prio

open Replay

/-- What is used of `np.power` on positive bases: it is positive and multiplicative, and opposite exponents give inverse results. -/
structure PowLaws (pw : ℚ → ℚ → ℚ) : Prop where
  pos : ∀ x e, 0 < x → 0 < pw x e
  mul : ∀ x y e, 0 < x → 0 < y → pw (x * y) e = pw x e * pw y e
  neg : ∀ x e, 0 < x → pw x (-e) * pw x e = 1

/-- C195. In every batch of a reachable non-empty buffer there is one positive number `c` such that the importance weight of every sampled transition is
`c / priority ^ beta`, with the `beta` before the call. -/
theorem C195_inverse {ι τ : Type} (conv : ι → Except Err τ) (norm : ℚ → ℚ) (pw : ℚ → ℚ → ℚ) (N : Nat) (beta inc : ℚ) (hN : 1 ≤ N)
    (hnorm : ∀ p, 0 < norm p) (hpw : PowLaws pw) {k : Nat} {b : PBuffer τ} (hr : Reach conv norm pw N beta inc k b) (hne : 0 < b.buf.size)
    (draws : List ℚ) (h2 : 2 ≤ draws.length) (n : Nat) (batch : List τ) (is : List Nat) (ws : List ℚ)
    (hres : (b.sampleBatch pw draws).2 = .ok (n, some (batch, is, ws))) :
    ws.length = is.length ∧
    ∃ c, 0 < c ∧ ∀ (i m : Nat) (w : ℚ), is[i]? = some m → ws[i]? = some w → w * pw (b.tree.weights.getD m 0) b.currBeta = c := by
  have hinv := (hr.inv hN hnorm).1
  have hidx := sampleIndex_ok pw hinv draws none
  simp only at hidx
  have hq := queries_bounds hinv.sum_nonneg draws
  have hqlen : (queries b.tree.weightSum draws).length = draws.length := by simp [queries]
  set qs := queries b.tree.weightSum draws with hqs'
  have hst : ∀ i ∈ qs.map (pick b.tree), i < b.buf.size ∧ 0 < b.tree.weights.getD i 0 := by
    intro i hi
    obtain ⟨q, hq', rfl⟩ := List.mem_map.1 hi
    exact pick_stored hinv hne (hq q hq').1 (hq q hq').2
  have hc : ¬ (draws.length = 0 ∨ b.buf.size = 0) := by omega
  simp only [PBuffer.sampleBatch, hc, if_false, hidx] at hres
  cases hrr : fetchIndex b.buf (shape (qs.map (pick b.tree))) with
  | error e =>
    rw [show ({ b with currBeta := min 1 (b.currBeta + b.betaInc) } : PBuffer τ).buf = b.buf from rfl, hrr] at hres
    cases hres
  | ok xs =>
    rw [show ({ b with currBeta := min 1 (b.currBeta + b.betaInc) } : PBuffer τ).buf = b.buf from rfl, hrr] at hres
    simp only [flat_shape, Except.ok.injEq, Prod.mk.injEq, Option.some.injEq] at hres
    obtain ⟨-, -, rfl, rfl⟩ := hres
    set ps := (qs.map (pick b.tree)).map (fun i => b.tree.weights.getD i 0) with hps
    have hppos : ∀ p ∈ ps, 0 < p := by
      intro p hp
      obtain ⟨i, hi, rfl⟩ := List.mem_map.1 hp
      exact (hst i hi).2
    have hsum : 0 < orSum none b.tree.weightSum := by
      show 0 < b.tree.weightSum
      rw [hinv.tree.weightSum_eq]
      apply Finset.sum_pos'
      · intro i hi; exact hinv.nonneg i (Finset.mem_range.1 hi)
      · refine ⟨0, Finset.mem_range.2 hinv.tree.pos, hinv.posw 0 hne⟩
    set s := orSum none b.tree.weightSum with hs
    have hlen0 : (0 : ℚ) < (b.buf.storage.len : ℚ) := by exact_mod_cast hne
    set f : ℚ → ℚ := fun p => pw (b.buf.storage.len * (p / s)) (-b.currBeta) with hf
    have hbase : ∀ p, 0 < p → 0 < (b.buf.storage.len : ℚ) * (p / s) := fun p hp => mul_pos hlen0 (div_pos hp hsum)
    have hfpos : ∀ p, 0 < p → 0 < f p := fun p hp => hpw.pos _ _ (hbase p hp)
    have hne' : ps.map f ≠ [] := by
      intro e
      have := congrArg List.length e
      simp [hps, hqlen] at this
      subst this
      simp at h2
    have hmaxpos : 0 < npMax (ps.map f) := by
      obtain ⟨p, hp, he⟩ := List.mem_map.1 (npMax_mem (ps.map f) hne')
      rw [← he]; exact hfpos p (hppos p hp)
    have hws : isWeights pw b.buf.storage.len s b.currBeta ps = (ps.map f).map (· / npMax (ps.map f)) := rfl
    refine ⟨by rw [hws]; simp [hps], pw (b.buf.storage.len / s) (-b.currBeta) / npMax (ps.map f), ?_, ?_⟩
    · exact div_pos (hpw.pos _ _ (div_pos hlen0 hsum)) hmaxpos
    · intro i m w hm hw
      have hp : ps[i]? = some (b.tree.weights.getD m 0) := by rw [hps, List.getElem?_map, hm]; rfl
      have hpos := hppos _ (List.mem_of_getElem? hp)
      rw [hws, List.getElem?_map, List.getElem?_map, hp] at hw
      simp only [Option.map_some, Option.some.injEq] at hw
      rw [← hw, hf]
      simp only
      rw [show (b.buf.storage.len : ℚ) * (b.tree.weights.getD m 0 / s) = b.buf.storage.len / s * b.tree.weights.getD m 0 by ring,
        hpw.mul _ _ _ (div_pos hlen0 hsum) hpos, div_mul_eq_mul_div, mul_assoc, hpw.neg _ _ hpos, mul_one]

/-- C195. Once `beta` has reached 1, weight times chance of being drawn (the share of the priority in the sum of all) is the same for all transitions of the
batch: weighted by them, no transition counts more in expectation than another. -/
theorem C195_unbiased {ι τ : Type} (conv : ι → Except Err τ) (norm : ℚ → ℚ) (pw : ℚ → ℚ → ℚ) (N : Nat) (beta inc : ℚ) (hN : 1 ≤ N)
    (hnorm : ∀ p, 0 < norm p) (hpw : PowLaws pw) (hone : ∀ x, 0 < x → pw x 1 = x) {k : Nat} {b : PBuffer τ}
    (hr : Reach conv norm pw N beta inc k b) (hne : 0 < b.buf.size) (hbeta : b.currBeta = 1) (draws : List ℚ) (h2 : 2 ≤ draws.length) (n : Nat)
    (batch : List τ) (is : List Nat) (ws : List ℚ) (hres : (b.sampleBatch pw draws).2 = .ok (n, some (batch, is, ws))) :
    ∃ c, 0 < c ∧ ∀ (i m : Nat) (w : ℚ), is[i]? = some m → ws[i]? = some w →
      (b.tree.weights.getD m 0 / ∑ j ∈ Finset.range N, b.tree.weights.getD j 0) * w = c := by
  have hinv := (hr.inv hN hnorm).1
  obtain ⟨-, c, hc, h⟩ := C195_inverse conv norm pw N beta inc hN hnorm hpw hr hne draws h2 n batch is ws hres
  have htot : ∑ m ∈ Finset.range N, b.tree.weights.getD m 0 = b.tree.weightSum := by rw [hinv.tree.weightSum_eq, hinv.size]
  have hW : 0 < b.tree.weightSum := by
    rw [hinv.tree.weightSum_eq]
    apply Finset.sum_pos'
    · intro i hi; exact hinv.nonneg i (Finset.mem_range.1 hi)
    · refine ⟨0, Finset.mem_range.2 hinv.tree.pos, hinv.posw 0 hne⟩
  refine ⟨c / b.tree.weightSum, div_pos hc hW, ?_⟩
  intro i m w hm hw
  have := h i m w hm hw
  rw [htot, ← this, hbeta]
  have hpos : 0 < b.tree.weights.getD m 0 := by
    by_contra hn
    have hidx := sampleIndex_ok pw hinv draws none
    simp only at hidx
    have hq := queries_bounds hinv.sum_nonneg draws
    have hc : ¬ (draws.length = 0 ∨ b.buf.size = 0) := by omega
    simp only [PBuffer.sampleBatch, hc, if_false, hidx] at hres
    cases hrr : fetchIndex b.buf (shape ((queries b.tree.weightSum draws).map (pick b.tree))) with
    | error e =>
      rw [show ({ b with currBeta := min 1 (b.currBeta + b.betaInc) } : PBuffer τ).buf = b.buf from rfl, hrr] at hres
      cases hres
    | ok xs =>
      rw [show ({ b with currBeta := min 1 (b.currBeta + b.betaInc) } : PBuffer τ).buf = b.buf from rfl, hrr] at hres
      simp only [flat_shape, Except.ok.injEq, Prod.mk.injEq, Option.some.injEq] at hres
      obtain ⟨-, -, rfl, -⟩ := hres
      obtain ⟨q, hq', rfl⟩ := List.mem_map.1 (List.mem_of_getElem? hm)
      exact hn (pick_stored hinv hne (hq q hq').1 (hq q hq').2).2
  rw [hone _ hpos]
  ring

/-- Non-vacuity: integer powers obey the laws on the exponents 1, 0 and -1; here for `pw x e = x ^ e` with `e` rounded. -/
example : PowLaws (fun x e => x ^ (if e = 1 then (1 : Int) else if e = -1 then -1 else 0)) where
  pos := fun x e hx => zpow_pos hx _
  mul := fun x y e _ _ => mul_zpow x y _
  neg := fun x e hx => by
    show x ^ _ * x ^ _ = 1
    rw [← zpow_add₀ (ne_of_gt hx)]
    by_cases h1 : e = 1
    · subst h1; norm_num
    · by_cases h2 : e = -1
      · subst h2; norm_num
      · have h3 : ¬ (-e = 1) := fun h => h2 (by linarith)
        have h4 : ¬ (-e = -1) := fun h => h1 (by linarith)
        rw [if_neg h3, if_neg h4, if_neg h1, if_neg h2]
        simp

end Machin.Prio
