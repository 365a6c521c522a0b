import Mathlib.Tactic.FieldSimp
import Mathlib.Tactic.Ring
import Mathlib.Tactic.Linarith
import Mathlib.Algebra.Order.BigOperators.Group.Finset
import Mathlib.Algebra.BigOperators.Field
import Verif.Project.Loss
import Verif.Project.Props

/-! # C225: what RAINBOW is trained towards -/

namespace Machin.Project

open Real

/-- A distribution over the atoms. -/
def IsDist {n : Nat} (q : Fin n → ℝ) : Prop := (∀ k, 0 ≤ q k) ∧ ∑ k, q k = 1

/-- C225 in full: for every row of a batch the loss depends on the answer of the network, and up to `1e-6` per atom no answer has a smaller loss than the target
distribution itself. -/
def C225_full : Prop :=
  ∀ (s : Support) (batch : Nat) (value discountN : Nat → Rat) (terminal : Nat → Bool) (p : Nat → Nat → Rat), Wide s →
    (∀ i j, 0 ≤ p i j) → (∀ i, ∑ j ∈ Finset.range s.atoms, p i j = 1) → ∀ i < batch,
    (∃ q q', IsDist q ∧ IsDist q' ∧
      rowLoss (targetRow s batch (shifted s value discountN terminal) p i) q ≠ rowLoss (targetRow s batch (shifted s value discountN terminal) p i) q') ∧
    ∀ q, IsDist q → rowLoss (targetRow s batch (shifted s value discountN terminal) p i) (targetRow s batch (shifted s value discountN terminal) p i) ≤
      rowLoss (targetRow s batch (shifted s value discountN terminal) p i) q + s.atoms * (1 / 1000000)

theorem gibbs_le (p b : ℝ) (hp : 0 ≤ p) (hb : 0 < b) : p * log b ≤ p * log p + (b - p) := by
  rcases hp.eq_or_lt with h | h
  · subst h
    simp [hb.le]
  · have h1 := log_le_sub_one_of_pos (div_pos hb h)
    rw [log_div hb.ne' h.ne'] at h1
    have h2 := mul_le_mul_of_nonneg_left h1 hp
    have h3 : p * (b / p - 1) = b - p := by field_simp
    linarith

/-- C225, the optimum of the loss for any target with some mass `m`: up to `1e-6 * m` per atom no answer has a smaller loss than the target divided by its mass. -/
theorem C225_optimal {n : Nat} (t q : Fin n → ℝ) (m : ℝ) (ht : ∀ k, 0 ≤ t k) (hm : ∑ k, t k = m) (hpos : 0 < m) (hq : IsDist q) :
    rowLoss t (fun k => t k / m) ≤ rowLoss t q + m * (n * (1 / 1000000)) := by
  have hn : (0 : ℝ) ≤ (n : ℝ) := Nat.cast_nonneg n
  have hZ : (0 : ℝ) < 1 + n * (1 / 1000000) := by positivity
  have hqe : ∀ k, 0 < q k + 1 / 1000000 := fun k => by have := hq.1 k; positivity
  have hsum : ∑ k, (q k + 1 / 1000000) / (1 + n * (1 / 1000000)) = 1 := by
    rw [← Finset.sum_div, Finset.sum_add_distrib, hq.2, Finset.sum_const, Finset.card_univ, Fintype.card_fin, nsmul_eq_mul, div_self hZ.ne']
  have hp1 : ∑ k, t k / m = 1 := by rw [← Finset.sum_div, hm, div_self hpos.ne']
  have h1 : ∑ k, t k / m * log ((q k + 1 / 1000000) / (1 + n * (1 / 1000000))) ≤ ∑ k, t k / m * log (t k / m) := by
    have : ∑ k, t k / m * log ((q k + 1 / 1000000) / (1 + n * (1 / 1000000))) ≤
        ∑ k, (t k / m * log (t k / m) + ((q k + 1 / 1000000) / (1 + n * (1 / 1000000)) - t k / m)) :=
      Finset.sum_le_sum fun k _ => gibbs_le _ _ (div_nonneg (ht k) hpos.le) (div_pos (hqe k) hZ)
    rw [Finset.sum_add_distrib, Finset.sum_sub_distrib, hsum, hp1] at this
    linarith
  have h2 : ∑ k, t k / m * log ((q k + 1 / 1000000) / (1 + n * (1 / 1000000))) =
      ∑ k, t k / m * log (q k + 1 / 1000000) - log (1 + n * (1 / 1000000)) := by
    have : ∀ k, t k / m * log ((q k + 1 / 1000000) / (1 + n * (1 / 1000000))) =
        t k / m * log (q k + 1 / 1000000) - t k / m * log (1 + n * (1 / 1000000)) := by
      intro k
      rw [log_div (hqe k).ne' hZ.ne']
      ring
    simp only [this, Finset.sum_sub_distrib, ← Finset.sum_mul, hp1, one_mul]
  have h3 : log (1 + n * (1 / 1000000)) ≤ n * (1 / 1000000) := by
    have := log_le_sub_one_of_pos hZ
    linarith
  have h4 : ∑ k, t k / m * log (t k / m) ≤ ∑ k, t k / m * log (t k / m + 1 / 1000000) := by
    refine Finset.sum_le_sum fun k _ => ?_
    rcases (div_nonneg (ht k) hpos.le).eq_or_lt with h | h
    · rw [← h]
      simp
    · exact mul_le_mul_of_nonneg_left (log_le_log h (by linarith)) h.le
  have h5 : ∑ k, t k / m * log (q k + 1 / 1000000) ≤ ∑ k, t k / m * log (t k / m + 1 / 1000000) + n * (1 / 1000000) := by linarith
  have h6 : ∀ r : Fin n → ℝ, rowLoss t r = -(m * ∑ k, t k / m * log (r k + 1 / 1000000)) := by
    intro r
    rw [rowLoss, Finset.mul_sum, ← Finset.sum_neg_distrib]
    refine Finset.sum_congr rfl fun k _ => ?_
    field_simp
  rw [h6, h6]
  have h7 := mul_le_mul_of_nonneg_left h5 hpos.le
  linarith

theorem targetRow_sum (s : Support) (batch : Nat) (T p : Nat → Nat → Rat) (i : Nat) : ∑ k, targetRow s batch T p i k = (rowMass s batch T p i : ℝ) := by
  unfold targetRow rowMass
  rw [Rat.cast_sum, Fin.sum_univ_eq_sum_range (fun k => ((((target s batch T p)[i * s.atoms + k]?).getD 0 : Rat) : ℝ))]

theorem targetRow_nonneg (s : Support) (hs : Wide s) (batch : Nat) (T p : Nat → Nat → Rat) (hp : ∀ i j, 0 ≤ p i j) (i : Nat) (hi : i < batch)
    (k : Fin s.atoms) : 0 ≤ targetRow s batch T p i k := by
  unfold targetRow
  exact_mod_cast C49_nonneg s hs batch T p hp i k.val hi k.isLt

/-- All the mass on one atom. -/
noncomputable def point {n : Nat} (k : Fin n) (j : Fin n) : ℝ := if j = k then 1 else 0

theorem point_dist {n : Nat} (k : Fin n) : IsDist (point k) := by
  refine ⟨fun j => ?_, by simp [point]⟩
  unfold point
  split <;> norm_num

/-- C225, what holds: if no shifted atom of a row falls on an atom of the support, no answer has a loss smaller by more than `1e-6` per atom than the target
distribution, and the answers do not all have the same loss. Missing: rows with shifted atoms that fall on the support, which lose mass (C49); see `C225_lost`. -/
theorem C225_target_partial (s : Support) (hs : Wide s) (batch : Nat) (T p : Nat → Nat → Rat) (hp : ∀ i j, 0 ≤ p i j) (i : Nat) (hi : i < batch)
    (hsum : ∑ j ∈ Finset.range s.atoms, p i j = 1) (hoff : ∀ j < s.atoms, (⌊pos s (T i j)⌋ : Rat) ≠ pos s (T i j)) :
    (∃ q q', IsDist q ∧ IsDist q' ∧ rowLoss (targetRow s batch T p i) q ≠ rowLoss (targetRow s batch T p i) q') ∧
    IsDist (targetRow s batch T p i) ∧
    ∀ q, IsDist q → rowLoss (targetRow s batch T p i) (targetRow s batch T p i) ≤ rowLoss (targetRow s batch T p i) q + s.atoms * (1 / 1000000) := by
  have hn := targetRow_nonneg s hs batch T p hp i hi
  have hm : ∑ k, targetRow s batch T p i k = 1 := by
    rw [targetRow_sum, C49_sum_partial s hs batch T p i hi hsum hoff]
    norm_num
  refine ⟨?_, ⟨hn, hm⟩, fun q hq => ?_⟩
  · generalize targetRow s batch T p i = t at hn hm
    obtain ⟨k, hk⟩ : ∃ k, 0 < t k := by
      by_contra hc
      push Not at hc
      have : ∑ k, t k ≤ 0 := Finset.sum_nonpos fun k _ => hc k
      linarith
    have hex : ∃ j : Fin s.atoms, j ≠ k := by
      have h2 : 2 ≤ s.atoms := hs.1
      by_cases h0 : k.val = 0
      · exact ⟨⟨1, by omega⟩, fun h => by have := congrArg Fin.val h; simp only at this; omega⟩
      · exact ⟨⟨0, by omega⟩, fun h => by have := congrArg Fin.val h; simp only at this; omega⟩
    obtain ⟨j, hj⟩ := hex
    by_cases hlt : t j ≤ t k
    · -- half the mass on each of two atoms against all of it on `j`
      refine ⟨fun a => (point j a + point k a) / 2, point j, ⟨fun a => ?_, ?_⟩, point_dist j, ?_⟩
      · have := (point_dist j).1 a
        have := (point_dist k).1 a
        positivity
      · rw [← Finset.sum_div, Finset.sum_add_distrib, (point_dist j).2, (point_dist k).2]
        norm_num
      · have hd : rowLoss t (fun a => (point j a + point k a) / 2) - rowLoss t (point j) =
            -(t j * (log (1 / 2 + 1 / 1000000) - log (1 + 1 / 1000000)) + t k * (log (1 / 2 + 1 / 1000000) - log (1 / 1000000))) := by
          rw [rowLoss, rowLoss, ← Finset.sum_sub_distrib]
          rw [← Finset.add_sum_erase _ _ (Finset.mem_univ j), ← Finset.add_sum_erase _ _ (Finset.mem_erase.mpr ⟨hj.symm, Finset.mem_univ k⟩)]
          rw [Finset.sum_eq_zero (s := (Finset.univ.erase j).erase k)]
          · simp only [point, if_neg hj, if_neg hj.symm, ↓reduceIte]
            norm_num
            ring
          · intro a ha
            have h1 : a ≠ k := (Finset.mem_erase.mp ha).1
            have h2 : a ≠ j := (Finset.mem_erase.mp (Finset.mem_erase.mp ha).2).1
            simp [point, h1, h2]
        intro heq
        rw [heq, sub_self] at hd
        have h1 : log (1 + 1 / 1000000 : ℝ) - log (1 / 2 + 1 / 1000000) < log (1 / 2 + 1 / 1000000) - log (1 / 1000000 : ℝ) := by
          rw [← log_div (by norm_num) (by norm_num), ← log_div (by norm_num) (by norm_num)]
          exact log_lt_log (by norm_num) (by norm_num)
        have h2 : 0 < log (1 + 1 / 1000000 : ℝ) - log (1 / 2 + 1 / 1000000) := by
          rw [← log_div (by norm_num) (by norm_num)]
          exact log_pos (by norm_num)
        have h3 := hn j
        nlinarith
    · refine ⟨point j, point k, point_dist j, point_dist k, ?_⟩
      have hd : rowLoss t (point j) - rowLoss t (point k) = -((t j - t k) * (log (1 + 1 / 1000000) - log (1 / 1000000))) := by
        rw [rowLoss, rowLoss, ← Finset.sum_sub_distrib]
        rw [← Finset.add_sum_erase _ _ (Finset.mem_univ j), ← Finset.add_sum_erase _ _ (Finset.mem_erase.mpr ⟨hj.symm, Finset.mem_univ k⟩)]
        rw [Finset.sum_eq_zero (s := (Finset.univ.erase j).erase k)]
        · simp only [point, if_neg hj, if_neg hj.symm, ↓reduceIte]
          norm_num
          ring
        · intro a ha
          have h1 : a ≠ k := (Finset.mem_erase.mp ha).1
          have h2 : a ≠ j := (Finset.mem_erase.mp (Finset.mem_erase.mp ha).2).1
          simp [point, h1, h2]
      intro heq
      rw [heq, sub_self] at hd
      have h1 : 0 < log (1 + 1 / 1000000 : ℝ) - log (1 / 1000000) := by
        rw [← log_div (by norm_num) (by norm_num)]
        exact log_pos (by norm_num)
      push Not at hlt
      nlinarith
  · have h := C225_optimal (targetRow s batch T p i) q 1 hn hm one_pos hq
    simpa using h

/-- C225: a row all of whose shifted atoms fall on the support is lost: its loss is 0 and its new priority is `1e-6`, whatever the network answers. It does not train
the network, and the prioritized buffer hardly ever draws it again. -/
theorem C225_lost (s : Support) (hs : Wide s) (batch : Nat) (T p : Nat → Nat → Rat) (i : Nat) (hi : i < batch)
    (hon : ∀ j < s.atoms, (⌊pos s (T i j)⌋ : Rat) = pos s (T i j)) (q : Fin s.atoms → ℝ) :
    rowLoss (targetRow s batch T p i) q = 0 ∧ rowPriority (targetRow s batch T p i) q = 1 / 1000000 := by
  have h0 : ∀ k, targetRow s batch T p i k = 0 := by
    intro k
    have : ((target s batch T p)[i * s.atoms + k.val]?).getD 0 = 0 := by
      rw [C49_entries s hs batch T p i k.val hi k.isLt]
      simp only [Option.getD_some]
      refine Finset.sum_eq_zero fun j hj => ?_
      have hj' := hon j (Finset.mem_range.mp hj)
      have hc : (⌈pos s (T i j)⌉ : Rat) = pos s (T i j) := by
        rw [← hj', Int.ceil_intCast]
      unfold share
      rw [hj', hc]
      simp
    unfold targetRow
    rw [this]
    simp
  have h1 : rowLoss (targetRow s batch T p i) q = 0 := by
    unfold rowLoss
    refine Finset.sum_eq_zero fun k _ => ?_
    rw [h0 k]
    simp
  refine ⟨h1, ?_⟩
  rw [rowPriority, h1]
  simp

/-- C225 does not hold: a terminal step with reward 0 and a support with an atom at 0. -/
theorem C225_violated : ¬ C225_full := by
  intro h
  have hw : Wide ⟨3, -1, 1⟩ := ⟨by decide, by decide +kernel⟩
  obtain ⟨⟨q, q', _, _, hne⟩, _⟩ := h ⟨3, -1, 1⟩ 1 (fun _ => 0) (fun _ => 9 / 10) (fun _ => true) (fun _ _ => 1 / 3) hw
    (fun _ _ => by decide +kernel) (fun _ => by decide +kernel) 0 (by decide)
  have hl := C225_lost ⟨3, -1, 1⟩ hw 1 (shifted ⟨3, -1, 1⟩ (fun _ => 0) (fun _ => 9 / 10) (fun _ => true)) (fun _ _ => 1 / 3) 0 (by decide)
    (fun j hj => match j, hj with
      | 0, _ => by decide +kernel
      | 1, _ => by decide +kernel
      | 2, _ => by decide +kernel)
  exact hne ((hl q).1.trans (hl q').1.symm)

/-- Non-vacuity of C225: a row that keeps its mass. -/
example : ∀ j < 3, (⌊pos ⟨3, -1, 1⟩ (shifted ⟨3, -1, 1⟩ (fun _ => 1 / 4) (fun _ => 1 / 2) (fun _ => false) 0 j)⌋ : Rat) ≠
    pos ⟨3, -1, 1⟩ (shifted ⟨3, -1, 1⟩ (fun _ => 1 / 4) (fun _ => 1 / 2) (fun _ => false) 0 j) := by decide +kernel

end Machin.Project
