import Verif.Project.Lemmas

/-! # C49: the distributional target -/

namespace Machin.Project

/-- What one atom of the next state's distribution contributes to atom `k`: its mass is split between the two neighbours of its
position. -/
def share (b p : Rat) (k : Nat) : Rat :=
  (if (⌊b⌋ : Int) = k then ((⌈b⌉ : Rat) - b) * p else 0) + (if (⌈b⌉ : Int) = k then (b - (⌊b⌋ : Rat)) * p else 0)

/-- Entry `(i, k)` of the target is the sum of the shares of the atoms of row `i`: rows are not mixed, no index is out of range. -/
theorem C49_entries (s : Support) (hs : Wide s) (batch : Nat) (T p : Nat → Nat → Rat) (i k : Nat) (hi : i < batch)
    (hk : k < s.atoms) :
    (target s batch T p)[i * s.atoms + k]? = some (∑ j ∈ Finset.range s.atoms, share (pos s (T i j)) (p i j) k) := by
  have ha : 0 < s.atoms := by have := hs.1; omega
  have hm : i * s.atoms + k < batch * s.atoms := by
    have : (i + 1) * s.atoms ≤ batch * s.atoms := Nat.mul_le_mul_right _ hi
    rw [Nat.succ_mul] at this
    omega
  unfold target indexAdd
  simp only
  rw [flat_zip, flat_zip]
  have h0 : (List.replicate (batch * s.atoms) (0 : Rat))[i * s.atoms + k]? = some 0 := by
    rw [List.getElem?_replicate, if_pos hm]
  have h1 := indexAdd_get _ (flat batch s.atoms (fun i j =>
    ((⌊pos s (T i j)⌋).toNat + i * s.atoms, ((⌈pos s (T i j)⌉ : Rat) - pos s (T i j)) * p i j))) _ _ h0
  rw [row_sum batch s.atoms ha (fun i j => (⌊pos s (T i j)⌋).toNat) _ (fun _ _ _ _ => (floor_range hs _).1) i k hi hk] at h1
  have h2 := indexAdd_get _ (flat batch s.atoms (fun i j =>
    ((⌈pos s (T i j)⌉).toNat + i * s.atoms, (pos s (T i j) - (⌊pos s (T i j)⌋ : Rat)) * p i j))) _ _ h1
  rw [row_sum batch s.atoms ha (fun i j => (⌈pos s (T i j)⌉).toNat) _ (fun _ _ _ _ => (ceil_range hs _).1) i k hi hk] at h2
  rw [h2, zero_add, ← Finset.sum_add_distrib]
  congr 1
  apply Finset.sum_congr rfl
  intro j _
  unfold share
  have hf := (floor_range hs (T i j)).2
  have hc := (ceil_range hs (T i j)).2
  have e1 : ((⌊pos s (T i j)⌋).toNat = k) ↔ (⌊pos s (T i j)⌋ : Int) = k := by omega
  have e2 : ((⌈pos s (T i j)⌉).toNat = k) ↔ (⌈pos s (T i j)⌉ : Int) = k := by omega
  simp only [e1, e2]

/-- The row sums of the target. -/
def rowMass (s : Support) (batch : Nat) (T p : Nat → Nat → Rat) (i : Nat) : Rat :=
  ∑ k ∈ Finset.range s.atoms, ((target s batch T p)[i * s.atoms + k]?).getD 0

/-- The whole property: for every support, shift and distribution the rows of the target are non-negative and sum to 1. -/
def C49_full : Prop :=
  ∀ (s : Support) (batch : Nat) (value discountN : Nat → Rat) (terminal : Nat → Bool) (p : Nat → Nat → Rat), Wide s →
    (∀ i j, 0 ≤ p i j) → (∀ i, ∑ j ∈ Finset.range s.atoms, p i j = 1) → ∀ i < batch,
    (∀ k < s.atoms, 0 ≤ ((target s batch (shifted s value discountN terminal) p)[i * s.atoms + k]?).getD 0) ∧
    rowMass s batch (shifted s value discountN terminal) p i = 1

/-- The mass of a row, exactly: an atom whose shifted position falls on an atom of the support (strictly inside the clamped range) is
lost, because both distances are 0. -/
theorem C49_mass_partial (s : Support) (hs : Wide s) (batch : Nat) (T p : Nat → Nat → Rat) (i : Nat) (hi : i < batch) :
    rowMass s batch T p i = ∑ j ∈ Finset.range s.atoms, if (⌊pos s (T i j)⌋ : Rat) = pos s (T i j) then 0 else p i j := by
  unfold rowMass
  have e : ∀ k ∈ Finset.range s.atoms, ((target s batch T p)[i * s.atoms + k]?).getD 0 =
      ∑ j ∈ Finset.range s.atoms, share (pos s (T i j)) (p i j) k := by
    intro k hk
    rw [C49_entries s hs batch T p i k hi (Finset.mem_range.mp hk)]
    rfl
  rw [Finset.sum_congr rfl e, Finset.sum_comm]
  apply Finset.sum_congr rfl
  intro j _
  unfold share
  rw [Finset.sum_add_distrib]
  have hf := floor_range hs (T i j)
  have hc := ceil_range hs (T i j)
  have e1 : ∑ k ∈ Finset.range s.atoms, (if (⌊pos s (T i j)⌋ : Int) = k then ((⌈pos s (T i j)⌉ : Rat) - pos s (T i j)) * p i j else 0) =
      ((⌈pos s (T i j)⌉ : Rat) - pos s (T i j)) * p i j := by
    rw [Finset.sum_eq_single (⌊pos s (T i j)⌋).toNat]
    · rw [if_pos hf.2.symm]
    · intro k _ hne
      rw [if_neg]
      omega
    · intro h
      exact absurd (Finset.mem_range.mpr hf.1) h
  have e2 : ∑ k ∈ Finset.range s.atoms, (if (⌈pos s (T i j)⌉ : Int) = k then (pos s (T i j) - (⌊pos s (T i j)⌋ : Rat)) * p i j else 0) =
      (pos s (T i j) - (⌊pos s (T i j)⌋ : Rat)) * p i j := by
    rw [Finset.sum_eq_single (⌈pos s (T i j)⌉).toNat]
    · rw [if_pos hc.2.symm]
    · intro k _ hne
      rw [if_neg]
      omega
    · intro h
      exact absurd (Finset.mem_range.mpr hc.1) h
  rw [e1, e2]
  by_cases hint : (⌊pos s (T i j)⌋ : Rat) = pos s (T i j)
  · rw [if_pos hint]
    have : ⌈pos s (T i j)⌉ = ⌊pos s (T i j)⌋ := by
      conv_lhs => rw [← hint]
      exact Int.ceil_intCast _
    rw [this, hint]
    ring
  · rw [if_neg hint]
    have h1 : (⌈pos s (T i j)⌉ : Rat) = ⌊pos s (T i j)⌋ + 1 := by
      have h2 : ⌈pos s (T i j)⌉ ≤ ⌊pos s (T i j)⌋ + 1 := Int.ceil_le_floor_add_one _
      have h3 : ⌊pos s (T i j)⌋ < ⌈pos s (T i j)⌉ := by
        by_contra hn
        have h4 : (⌈pos s (T i j)⌉ : Rat) ≤ ⌊pos s (T i j)⌋ := by exact_mod_cast Int.not_lt.mp hn
        exact hint (le_antisymm (Int.floor_le _) (le_trans (Int.le_ceil _) h4))
      have h5 : ⌈pos s (T i j)⌉ = ⌊pos s (T i j)⌋ + 1 := by omega
      rw [h5]
      push_cast
      rfl
    rw [h1]
    ring

/-- The expected value of a row, exactly: every atom that is not lost contributes its mass times its clamped shifted value, so the
projection keeps the expectation. -/
theorem C49_mean_partial (s : Support) (hs : Wide s) (batch : Nat) (T p : Nat → Nat → Rat) (i : Nat) (hi : i < batch) :
    ∑ k ∈ Finset.range s.atoms, s.z k * ((target s batch T p)[i * s.atoms + k]?).getD 0 =
      ∑ j ∈ Finset.range s.atoms, if (⌊pos s (T i j)⌋ : Rat) = pos s (T i j) then 0 else
        p i j * min (max (T i j) (s.vmin + 1 / 1000000)) (s.vmax - 1 / 1000000) := by
  have e : ∀ k ∈ Finset.range s.atoms, s.z k * ((target s batch T p)[i * s.atoms + k]?).getD 0 =
      ∑ j ∈ Finset.range s.atoms, s.z k * share (pos s (T i j)) (p i j) k := by
    intro k hk
    rw [C49_entries s hs batch T p i k hi (Finset.mem_range.mp hk), ← Finset.mul_sum]
    rfl
  rw [Finset.sum_congr rfl e, Finset.sum_comm]
  apply Finset.sum_congr rfl
  intro j _
  have hf := floor_range hs (T i j)
  have hc := ceil_range hs (T i j)
  have hd : s.delta ≠ 0 := by
    have := delta_pos hs
    exact ne_of_gt this
  have hpos : clamp s (T i j) = s.vmin + pos s (T i j) * s.delta := by
    unfold pos
    field_simp
    ring
  have hsplit : ∑ k ∈ Finset.range s.atoms, s.z k * share (pos s (T i j)) (p i j) k =
      (s.vmin + ⌊pos s (T i j)⌋ * s.delta) * (((⌈pos s (T i j)⌉ : Rat) - pos s (T i j)) * p i j) +
      (s.vmin + ⌈pos s (T i j)⌉ * s.delta) * ((pos s (T i j) - (⌊pos s (T i j)⌋ : Rat)) * p i j) := by
    have e1 : ∑ k ∈ Finset.range s.atoms, s.z k * (if (⌊pos s (T i j)⌋ : Int) = k then ((⌈pos s (T i j)⌉ : Rat) - pos s (T i j)) * p i j else 0) =
        (s.vmin + ⌊pos s (T i j)⌋ * s.delta) * (((⌈pos s (T i j)⌉ : Rat) - pos s (T i j)) * p i j) := by
      rw [Finset.sum_eq_single (⌊pos s (T i j)⌋).toNat]
      · rw [if_pos hf.2.symm]
        have : (((⌊pos s (T i j)⌋).toNat : Nat) : Rat) = ((⌊pos s (T i j)⌋ : Int) : Rat) := by exact_mod_cast hf.2
        rw [Support.z, this]
      · intro k _ hne
        rw [if_neg (by omega), mul_zero]
      · intro h
        exact absurd (Finset.mem_range.mpr hf.1) h
    have e2 : ∑ k ∈ Finset.range s.atoms, s.z k * (if (⌈pos s (T i j)⌉ : Int) = k then (pos s (T i j) - (⌊pos s (T i j)⌋ : Rat)) * p i j else 0) =
        (s.vmin + ⌈pos s (T i j)⌉ * s.delta) * ((pos s (T i j) - (⌊pos s (T i j)⌋ : Rat)) * p i j) := by
      rw [Finset.sum_eq_single (⌈pos s (T i j)⌉).toNat]
      · rw [if_pos hc.2.symm]
        have : (((⌈pos s (T i j)⌉).toNat : Nat) : Rat) = ((⌈pos s (T i j)⌉ : Int) : Rat) := by exact_mod_cast hc.2
        rw [Support.z, this]
      · intro k _ hne
        rw [if_neg (by omega), mul_zero]
      · intro h
        exact absurd (Finset.mem_range.mpr hc.1) h
    rw [← e1, ← e2, ← Finset.sum_add_distrib]
    apply Finset.sum_congr rfl
    intro k _
    unfold share
    ring
  rw [hsplit]
  by_cases hint : (⌊pos s (T i j)⌋ : Rat) = pos s (T i j)
  · rw [if_pos hint]
    have : ⌈pos s (T i j)⌉ = ⌊pos s (T i j)⌋ := by
      conv_lhs => rw [← hint]
      exact Int.ceil_intCast _
    rw [this, hint]
    ring
  · rw [if_neg hint]
    change _ = p i j * clamp s (T i j)
    rw [hpos]
    have h1 : (⌈pos s (T i j)⌉ : Rat) = ⌊pos s (T i j)⌋ + 1 := by
      have h2 : ⌈pos s (T i j)⌉ ≤ ⌊pos s (T i j)⌋ + 1 := Int.ceil_le_floor_add_one _
      have h3 : ⌊pos s (T i j)⌋ < ⌈pos s (T i j)⌉ := by
        by_contra hn
        have h4 : (⌈pos s (T i j)⌉ : Rat) ≤ ⌊pos s (T i j)⌋ := by exact_mod_cast Int.not_lt.mp hn
        exact hint (le_antisymm (Int.floor_le _) (le_trans (Int.le_ceil _) h4))
      have h5 : ⌈pos s (T i j)⌉ = ⌊pos s (T i j)⌋ + 1 := by omega
      rw [h5]
      push_cast
      rfl
    rw [h1]
    ring

/-- Entries are never negative. -/
theorem C49_nonneg (s : Support) (hs : Wide s) (batch : Nat) (T p : Nat → Nat → Rat) (hp : ∀ i j, 0 ≤ p i j) (i k : Nat)
    (hi : i < batch) (hk : k < s.atoms) : 0 ≤ ((target s batch T p)[i * s.atoms + k]?).getD 0 := by
  rw [C49_entries s hs batch T p i k hi hk]
  simp only [Option.getD_some]
  apply Finset.sum_nonneg
  intro j _
  unfold share
  apply add_nonneg
  · split
    · exact mul_nonneg (sub_nonneg.mpr (Int.le_ceil _)) (hp i j)
    · exact le_refl _
  · split
    · exact mul_nonneg (sub_nonneg.mpr (Int.floor_le _)) (hp i j)
    · exact le_refl _

/-- The property holds if no shifted atom falls on an atom of the support. -/
theorem C49_sum_partial (s : Support) (hs : Wide s) (batch : Nat) (T p : Nat → Nat → Rat) (i : Nat) (hi : i < batch)
    (hsum : ∑ j ∈ Finset.range s.atoms, p i j = 1) (hoff : ∀ j < s.atoms, (⌊pos s (T i j)⌋ : Rat) ≠ pos s (T i j)) :
    rowMass s batch T p i = 1 := by
  rw [C49_mass_partial s hs batch T p i hi, ← hsum]
  apply Finset.sum_congr rfl
  intro j hj
  rw [if_neg (hoff j (Finset.mem_range.mp hj))]

/-- If no shifted atom falls on an atom of the support and none is cut off, the expected value of the target of a row is its reward plus, unless it is terminal, its
discount times the expected value predicted for the next state. -/
theorem C49_bellman_partial (s : Support) (hs : Wide s) (batch : Nat) (value discountN : Nat → Rat) (terminal : Nat → Bool) (p : Nat → Nat → Rat) (i : Nat)
    (hi : i < batch) (hsum : ∑ j ∈ Finset.range s.atoms, p i j = 1)
    (hoff : ∀ j < s.atoms, (⌊pos s (shifted s value discountN terminal i j)⌋ : Rat) ≠ pos s (shifted s value discountN terminal i j))
    (hin : ∀ j < s.atoms, s.vmin + 1 / 1000000 ≤ shifted s value discountN terminal i j ∧ shifted s value discountN terminal i j ≤ s.vmax - 1 / 1000000) :
    ∑ k ∈ Finset.range s.atoms, s.z k * ((target s batch (shifted s value discountN terminal) p)[i * s.atoms + k]?).getD 0 =
      if terminal i = true then value i else value i + discountN i * ∑ j ∈ Finset.range s.atoms, s.z j * p i j := by
  rw [C49_mean_partial s hs batch _ p i hi]
  have e : ∀ j ∈ Finset.range s.atoms, (if (⌊pos s (shifted s value discountN terminal i j)⌋ : Rat) = pos s (shifted s value discountN terminal i j) then 0 else
      p i j * min (max (shifted s value discountN terminal i j) (s.vmin + 1 / 1000000)) (s.vmax - 1 / 1000000)) =
      value i * p i j + (if terminal i = true then 0 else discountN i) * (s.z j * p i j) := by
    intro j hj
    have hj' := Finset.mem_range.mp hj
    rw [if_neg (hoff j hj'), max_eq_left (hin j hj').1, min_eq_left (hin j hj').2, shifted]
    split <;> ring
  rw [Finset.sum_congr rfl e, Finset.sum_add_distrib, ← Finset.mul_sum, ← Finset.mul_sum, hsum]
  split <;> ring

/-- A terminal step with reward 0, support `-1, 0, 1`: all the mass is lost. -/
theorem C49_violated_mass : rowMass ⟨3, -1, 1⟩ 1 (shifted ⟨3, -1, 1⟩ (fun _ => 0) (fun _ => 9 / 10) (fun _ => true))
    (fun _ _ => 1 / 3) 0 = 0 := by
  decide +kernel

theorem C49_violated : ¬ C49_full := by
  intro h
  have := (h ⟨3, -1, 1⟩ 1 (fun _ => 0) (fun _ => 9 / 10) (fun _ => true) (fun _ _ => 1 / 3)
    ⟨by decide, by decide +kernel⟩ (fun _ _ => by decide +kernel) (fun _ => by decide +kernel) 0 (by decide)).2
  rw [C49_violated_mass] at this
  revert this
  decide +kernel

/-- Two rows, shifted off the atoms: all the mass is there. -/
example : Wide ⟨3, -1, 1⟩ ∧
    target ⟨3, -1, 1⟩ 2 (shifted ⟨3, -1, 1⟩ (fun i => if i = 0 then 1 / 4 else -1 / 3) (fun _ => 1 / 2) (fun _ => false))
      (fun _ _ => 1 / 3) = [1 / 12, 7 / 12, 1 / 3, 7 / 18, 5 / 9, 1 / 18] := by
  refine ⟨⟨by decide, by decide +kernel⟩, ?_⟩
  decide +kernel

/-- A row that meets the hypotheses of `C49_bellman_partial`: the target has expected value 1/4 + 1/2 · 0. -/
example : (∀ j < 3, (⌊pos ⟨3, -1, 1⟩ (shifted ⟨3, -1, 1⟩ (fun _ => 1 / 4) (fun _ => 1 / 2) (fun _ => false) 0 j)⌋ : Rat) ≠
      pos ⟨3, -1, 1⟩ (shifted ⟨3, -1, 1⟩ (fun _ => 1 / 4) (fun _ => 1 / 2) (fun _ => false) 0 j)) ∧
    (∀ j < 3, (-1 : Rat) + 1 / 1000000 ≤ shifted ⟨3, -1, 1⟩ (fun _ => 1 / 4) (fun _ => 1 / 2) (fun _ => false) 0 j ∧
      shifted ⟨3, -1, 1⟩ (fun _ => 1 / 4) (fun _ => 1 / 2) (fun _ => false) 0 j ≤ (1 : Rat) - 1 / 1000000) ∧
    ∑ k ∈ Finset.range 3, (⟨3, -1, 1⟩ : Support).z k * ((target ⟨3, -1, 1⟩ 1 (shifted ⟨3, -1, 1⟩ (fun _ => 1 / 4) (fun _ => 1 / 2) (fun _ => false))
      (fun _ _ => 1 / 3))[k]?).getD 0 = 1 / 4 := by decide +kernel

end Machin.Project
