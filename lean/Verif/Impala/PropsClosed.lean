import Verif.Impala.Lemmas
import Mathlib.Algebra.BigOperators.Ring.Finset
import Mathlib.Algebra.Order.Field.Rat
import Mathlib.Algebra.Order.BigOperators.Ring.Finset
import Mathlib.Tactic.Linarith
import Mathlib.Tactic.FieldSimp
import Mathlib.Tactic.Ring

/-!
# C201: the closed form of the v-trace targets of IMPALA

The targets are computed by a loop from the last step of an episode to its first. Here they are given by a formula without the
loop: the value of the step, corrected by the temporal differences of the steps after it, each weighted with the clipped
ratios in between; and by the value of the last step, whose own target is 0.
-/

namespace Machin.Impala

open Finset

variable {K : Type}

/-- The value of step `t`, 0 outside the episode. -/
def valueAt [Zero K] (ep : List (Datum K)) (t : Nat) : K := ((ep[t]?).map (·.value)).getD 0

/-- The clipped ratio `c_t = min(clip_c, ratio_t)`. -/
def weightAt [Zero K] [Min K] (h : Hyper K) (ep : List (Datum K)) (t : Nat) : K := ((ep[t]?).map fun d => min h.clipC d.ratio).getD 0

/-- The weighted temporal difference `min(clip_rho, ratio_t) * (r_t + g V'_t - V_t)`, with no next value after a terminal step. -/
def diffAt [CommRing K] [LinearOrder K] (h : Hyper K) (ep : List (Datum K)) (t : Nat) : K :=
  ((ep[t]?).map fun d =>
    min h.clipRho d.ratio * (d.reward + h.discount * (if d.terminal then 0 else d.nextValue) - d.value)).getD 0

/-- The formula: `V_t + sum_{k<m} g^k c_t ... c_{t+k-1} diff_{t+k} - g^m c_t ... c_{t+m-1} V_{t+m}`, where `t + m` is the last step. -/
def formula [CommRing K] [LinearOrder K] (h : Hyper K) (ep : List (Datum K)) (t m : Nat) : K :=
  valueAt ep t + ∑ k ∈ range m, h.discount ^ k * (∏ i ∈ range k, weightAt h ep (t + i)) * diffAt h ep (t + k) -
    h.discount ^ m * (∏ i ∈ range m, weightAt h ep (t + i)) * valueAt ep (t + m)

section

variable [CommRing K] [LinearOrder K]

theorem formula_succ (h : Hyper K) (ep : List (Datum K)) (t m : Nat) :
    formula h ep t (m + 1) = valueAt ep t + diffAt h ep t + h.discount * weightAt h ep t * (formula h ep (t + 1) m - valueAt ep (t + 1)) := by
  unfold formula
  rw [sum_range_succ', prod_range_succ']
  have hs : ∀ k, ∏ i ∈ range (k + 1), weightAt h ep (t + i) = (∏ i ∈ range k, weightAt h ep (t + 1 + i)) * weightAt h ep t := by
    intro k
    rw [prod_range_succ']
    congr 1
    apply prod_congr rfl
    intro i _
    congr 1
    omega
  have hp : ∏ i ∈ range m, weightAt h ep (t + (i + 1)) = ∏ i ∈ range m, weightAt h ep (t + 1 + i) := by
    apply prod_congr rfl
    intro i _
    congr 1
    omega
  have hsum : ∑ k ∈ range m, h.discount ^ (k + 1) * (∏ i ∈ range (k + 1), weightAt h ep (t + i)) * diffAt h ep (t + (k + 1)) =
      h.discount * weightAt h ep t *
        ∑ k ∈ range m, h.discount ^ k * (∏ i ∈ range k, weightAt h ep (t + 1 + i)) * diffAt h ep (t + 1 + k) := by
    rw [mul_sum]
    apply sum_congr rfl
    intro k _
    rw [hs, show t + (k + 1) = t + 1 + k by omega]
    ring
  rw [hsum, hp, show t + (m + 1) = t + 1 + m by omega]
  simp
  ring

/-- The targets of an episode. -/
theorem C201_closed (h : Hyper K) (ep : List (Datum K)) (t m : Nat) (ht : t + m + 1 = ep.length) :
    (vtrace h ep [ep.length]).1[t]? = some (formula h ep t m) := by
  have e : (vtrace h ep [ep.length]).1 = revLoop h ep 0 (ep.length - 1) (List.replicate ep.length 0) := rfl
  rw [e]
  obtain ⟨g1, g2⟩ := revLoop_get h ep (ep.length - 1) (List.replicate ep.length 0) (by simp) (by omega)
  induction m generalizing t with
  | zero =>
    rw [g1 t (by omega), List.getElem?_replicate, if_pos (by omega)]
    simp [formula]
  | succ m ih =>
    obtain ⟨d, hd⟩ : ∃ d, ep[t]? = some d := ⟨ep[t]'(by omega), List.getElem?_eq_getElem _⟩
    obtain ⟨d', hd'⟩ : ∃ d, ep[t + 1]? = some d := ⟨ep[t + 1]'(by omega), List.getElem?_eq_getElem _⟩
    rw [g2 t d d' (by omega) hd hd', ih (t + 1) (by omega), formula_succ]
    simp only [Option.getD_some, stepTarget, valueAt, diffAt, weightAt, hd, hd', Option.map_some, deltaOf, cOf, rhoOf]

/-- The targets of a batch of whole episodes, with the lengths that `update` has recovered, are those of the episodes, one
episode after the other. -/
theorem C201_batch (h : Hyper K) (eps : List (List (Datum K))) (hne : ∀ e ∈ eps, e ≠ []) :
    (vtrace h eps.flatten (eps.map List.length)).1 =
      (eps.map fun e => (List.range e.length).map fun t => formula h e t (e.length - 1 - t)).flatten := by
  have h1 := epLoop_spec h eps hne [] [] [] rfl rfl
  rw [List.nil_append, List.nil_append, List.nil_append, List.nil_append] at h1
  have h2 : (vtrace h eps.flatten (eps.map List.length)).1 = (eps.map fun e => (vtrace h e [e.length]).1).flatten :=
    congrArg Prod.fst h1
  rw [h2]
  congr 1
  apply List.map_congr_left
  intro e he
  apply List.ext_getElem?
  intro t
  by_cases ht : t < e.length
  · rw [C201_closed h e t (e.length - 1 - t) (by omega), List.getElem?_map, List.getElem?_range ht]
    rfl
  · have hl : (vtrace h e [e.length]).1.length = e.length := by
      show (revLoop h e 0 (e.length - 1) (List.replicate e.length 0)).length = e.length
      rw [length_revLoop]; simp
    rw [List.getElem?_eq_none (by omega), List.getElem?_eq_none (by simp; omega)]

/-- A critic that satisfies the Bellman equation along the episode: what is left is the value of the last step. -/
theorem C201_consistent (h : Hyper K) (ep : List (Datum K)) (t m : Nat) (ht : t + m + 1 = ep.length)
    (hc : ∀ d ∈ ep, d.value = d.reward + h.discount * (if d.terminal then 0 else d.nextValue)) :
    (vtrace h ep [ep.length]).1[t]? =
      some (valueAt ep t - h.discount ^ m * (∏ i ∈ range m, weightAt h ep (t + i)) * valueAt ep (t + m)) := by
  have hz : ∀ k, diffAt h ep k = 0 := by
    intro k
    unfold diffAt
    cases hk : ep[k]? with
    | none => rfl
    | some d =>
      have := hc d (List.mem_of_getElem? hk)
      simp only [Option.map_some, Option.getD_some]
      rw [← this, sub_self, mul_zero]
  rw [C201_closed h ep t m ht]
  unfold formula
  simp [hz]

end

section

variable [Field K] [LinearOrder K] [IsStrictOrderedRing K]

theorem diffAt_le (h : Hyper K) (ep : List (Datum K)) (B D : K) (hB : 0 ≤ B) (hD : 0 ≤ D) (hg : 0 ≤ h.discount) (hr : 0 ≤ h.clipRho)
    (hd : ∀ d ∈ ep, 0 ≤ d.ratio ∧ |d.value| ≤ B ∧ |d.nextValue| ≤ B ∧ |d.reward| ≤ D) (t : Nat) :
    |diffAt h ep t| ≤ h.clipRho * (D + (h.discount + 1) * B) := by
  have hpos : 0 ≤ h.clipRho * (D + (h.discount + 1) * B) :=
    mul_nonneg hr (add_nonneg hD (mul_nonneg (by linarith) hB))
  unfold diffAt
  cases hk : ep[t]? with
  | none => simpa using hpos
  | some d =>
    obtain ⟨h1, h2, h3, h4⟩ := hd d (List.mem_of_getElem? hk)
    simp only [Option.map_some, Option.getD_some]
    have hrho0 : 0 ≤ min h.clipRho d.ratio := le_min hr h1
    have hrho1 : min h.clipRho d.ratio ≤ h.clipRho := min_le_left _ _
    have hin : |d.reward + h.discount * (if d.terminal then 0 else d.nextValue) - d.value| ≤ D + (h.discount + 1) * B := by
      have hnv : |(if d.terminal then (0 : K) else d.nextValue)| ≤ B := by
        split
        · simpa using hB
        · exact h3
      have e1 := abs_le.1 hnv
      have e2 := abs_le.1 h2
      have e4 := abs_le.1 h4
      have m1 := mul_le_mul_of_nonneg_left e1.2 hg
      have m2 := mul_le_mul_of_nonneg_left e1.1 hg
      rw [abs_le]
      constructor <;> nlinarith
    rw [abs_mul, abs_of_nonneg hrho0]
    exact mul_le_mul hrho1 hin (abs_nonneg _) hr

theorem weightAt_bounds (h : Hyper K) (ep : List (Datum K)) (hc : 0 ≤ h.clipC) (hd : ∀ d ∈ ep, 0 ≤ d.ratio) (t : Nat) :
    0 ≤ weightAt h ep t ∧ weightAt h ep t ≤ h.clipC := by
  unfold weightAt
  cases hk : ep[t]? with
  | none => exact ⟨le_refl _, hc⟩
  | some d =>
    simp only [Option.map_some, Option.getD_some]
    exact ⟨le_min hc (hd d (List.mem_of_getElem? hk)), min_le_left _ _⟩

/-- Whatever the ratios of the two policies are, clipping keeps the targets bounded: with values up to `B` and rewards up to `D`, a
target differs from the value of its step by at most `clip_rho (D + (g + 1) B) / (1 - g clip_c) + (g clip_c)^m B`, where `m` is the number of
steps after it; the bound does not grow with the length of the episode. -/
theorem C201_bounded (h : Hyper K) (ep : List (Datum K)) (t m : Nat) (ht : t + m + 1 = ep.length) (B D : K) (hB : 0 ≤ B) (hD : 0 ≤ D)
    (hg : 0 ≤ h.discount) (hr : 0 ≤ h.clipRho) (hc : 0 ≤ h.clipC) (hq : h.discount * h.clipC < 1)
    (hd : ∀ d ∈ ep, 0 ≤ d.ratio ∧ |d.value| ≤ B ∧ |d.nextValue| ≤ B ∧ |d.reward| ≤ D) :
    ∃ v, (vtrace h ep [ep.length]).1[t]? = some v ∧
      |v - valueAt ep t| ≤ h.clipRho * (D + (h.discount + 1) * B) / (1 - h.discount * h.clipC) + (h.discount * h.clipC) ^ m * B := by
  refine ⟨_, C201_closed h ep t m ht, ?_⟩
  have hw := weightAt_bounds h ep hc (fun d hd' => (hd d hd').1)
  have hdiff := diffAt_le h ep B D hB hD hg hr hd
  generalize h.clipRho * (D + (h.discount + 1) * B) = M at hdiff
  have hM : 0 ≤ M := le_trans (abs_nonneg _) (hdiff 0)
  have hq0 : 0 ≤ h.discount * h.clipC := mul_nonneg hg hc
  have hpos : 0 < 1 - h.discount * h.clipC := by linarith
  clear ht
  induction m generalizing t with
  | zero =>
    have hv : |valueAt ep t| ≤ B := by
      unfold valueAt
      cases hk : ep[t]? with
      | none => simpa using hB
      | some d => exact (hd d (List.mem_of_getElem? hk)).2.1
    have : 0 ≤ M / (1 - h.discount * h.clipC) := div_nonneg hM hpos.le
    simp only [formula, range_zero, sum_empty, prod_empty, pow_zero, add_zero, one_mul, sub_sub_cancel_left, abs_neg]
    linarith
  | succ m ih =>
    rw [formula_succ]
    have e : valueAt ep t + diffAt h ep t + h.discount * weightAt h ep t * (formula h ep (t + 1) m - valueAt ep (t + 1)) - valueAt ep t =
        diffAt h ep t + h.discount * weightAt h ep t * (formula h ep (t + 1) m - valueAt ep (t + 1)) := by ring
    rw [e]
    refine le_trans (abs_add_le _ _) ?_
    rw [abs_mul, abs_of_nonneg (mul_nonneg hg (hw t).1)]
    have h1 := hdiff t
    have h2 := ih (t + 1)
    have h3 : h.discount * weightAt h ep t ≤ h.discount * h.clipC := mul_le_mul_of_nonneg_left (hw t).2 hg
    have h4 : h.discount * weightAt h ep t * |formula h ep (t + 1) m - valueAt ep (t + 1)| ≤
        h.discount * h.clipC * (M / (1 - h.discount * h.clipC) + (h.discount * h.clipC) ^ m * B) :=
      mul_le_mul h3 h2 (abs_nonneg _) hq0
    have h5 : M / (1 - h.discount * h.clipC) = M + h.discount * h.clipC * (M / (1 - h.discount * h.clipC)) := by
      field_simp
      ring
    have h6 : (h.discount * h.clipC) ^ (m + 1) * B = h.discount * h.clipC * ((h.discount * h.clipC) ^ m * B) := by ring
    rw [h6, h5]
    nlinarith

end

/-- An episode of three steps, off policy. -/
example : (vtrace (⟨1 / 2, 1, 2⟩ : Hyper ℚ) [⟨3, 1, 2, 4, false⟩, ⟨1 / 2, 2, 1, 0, false⟩, ⟨1, 1, 0, 1, true⟩] [3]).1 = [17 / 2, 1, 0] ∧
    formula (⟨1 / 2, 1, 2⟩ : Hyper ℚ) [⟨3, 1, 2, 4, false⟩, ⟨1 / 2, 2, 1, 0, false⟩, ⟨1, 1, 0, 1, true⟩] 0 2 = 17 / 2 := by
  decide +kernel

/-- It meets the hypotheses of the bound with `B = 2`, `D = 4`. -/
example : ∀ d ∈ ([⟨3, 1, 2, 4, false⟩, ⟨1 / 2, 2, 1, 0, false⟩, ⟨1, 1, 0, 1, true⟩] : List (Datum ℚ)),
    0 ≤ d.ratio ∧ |d.value| ≤ 2 ∧ |d.nextValue| ≤ 2 ∧ |d.reward| ≤ 4 := by decide +kernel

/-- A critic that satisfies the Bellman equation. -/
example : ∀ d ∈ ([⟨3, 2, 2, 1, false⟩, ⟨1 / 2, 2, 4, 0, false⟩, ⟨1, 4, 0, 4, true⟩] : List (Datum ℚ)),
    d.value = d.reward + (1 / 2) * (if d.terminal then 0 else d.nextValue) := by decide +kernel

end Machin.Impala
