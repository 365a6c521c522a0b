import Verif.Returns.Lemmas
import Mathlib.Algebra.BigOperators.Ring.Finset
import Mathlib.Tactic.Ring

/-! # Property C192: generalised advantages are mixtures of n-step advantages -/

namespace Machin.Returns

open Spec

variable {R S : Type} [CommRing R]

/-- The value of the state at step `t`; there is no value to expect after the end of the episode. -/
def valueAt (V : S → R) (ep : List (Tr R S)) (t : Nat) : R := ((ep[t]?).map fun tr => V tr.state).getD 0

/-- The advantage of step `t` estimated from the next `n` rewards and the value of the state reached then. -/
def nstepAdvantage (g : R) (V : S → R) (ep : List (Tr R S)) (t n : Nat) : R :=
  discounted g n (fun k => rewardAt (ep.map (·.reward)) (t + k)) + g ^ n * valueAt V ep (t + n) - valueAt V ep t

/-- The mixture of the advantages for 1, 2, …, `m + 1` steps with weights `(1 - l) l ^ (n - 1)`, the rest of the weight on the last. -/
def mixture (l : R) (m : Nat) (A : Nat → R) : R := (1 - l) * ∑ n ∈ Finset.range m, l ^ n * A (n + 1) + l ^ m * A (m + 1)

theorem chained_get {ep : List (Tr R S)} (hc : Chained ep) (i : Nat) (a b : Tr R S) (ha : ep[i]? = some a) (hb : ep[i + 1]? = some b) :
    a.next = b.state ∧ a.terminal = false := by
  induction ep generalizing i with
  | nil => simp at ha
  | cons x xs ih =>
    cases xs with
    | nil => simp at hb
    | cons y ys =>
      cases i with
      | zero =>
        simp only [List.getElem?_cons_zero, Option.some.injEq, List.getElem?_cons_succ] at ha hb
        subst ha; subst hb
        exact ⟨hc.1, hc.2.1⟩
      | succ i => exact ih hc.2.2 i (by simpa using ha) (by simpa using hb)

/-- The error of a step in terms of rewards and values. -/
theorem deltaAt_eq (g : R) (V : S → R) {ep : List (Tr R S)} (hc : Chained ep) (he : Ends ep) (i : Nat) (h : i < ep.length) :
    deltaAt g V ep i = rewardAt (ep.map (·.reward)) i + g * valueAt V ep (i + 1) - valueAt V ep i := by
  have ha : ep[i]? = some ep[i] := List.getElem?_eq_getElem h
  simp only [deltaAt, delta, rewardAt, valueAt, List.getElem?_map, ha, Option.map_some, Option.getD_some]
  by_cases hl : i + 1 < ep.length
  · have hb : ep[i + 1]? = some ep[i + 1] := List.getElem?_eq_getElem hl
    obtain ⟨h1, h2⟩ := chained_get hc i _ _ ha hb
    rw [hb, h1, h2]
    simp [notTerm]
  · have hb : ep[i + 1]? = none := List.getElem?_eq_none (by omega)
    have ht : ep[i].terminal = true := by
      apply he
      rw [List.getLast?_eq_getElem?, show ep.length - 1 = i by omega, ha]
    rw [hb, ht]
    simp [notTerm]

/-- An n-step advantage is the discounted sum of `n` errors. -/
theorem nstepAdvantage_eq (g : R) (V : S → R) {ep : List (Tr R S)} (hc : Chained ep) (he : Ends ep) (t n : Nat) (h : t + n ≤ ep.length) :
    nstepAdvantage g V ep t n = ∑ k ∈ Finset.range n, g ^ k * deltaAt g V ep (t + k) := by
  induction n with
  | zero => simp [nstepAdvantage, discounted]
  | succ n ih =>
    rw [Finset.sum_range_succ, ← ih (by omega), deltaAt_eq g V hc he (t + n) (by omega)]
    simp only [nstepAdvantage, discounted, Finset.sum_range_succ, pow_succ, Nat.add_assoc]
    ring

theorem mixture_sums (l : R) (m : Nat) (d : Nat → R) :
    mixture l m (fun n => ∑ k ∈ Finset.range n, d k) = ∑ k ∈ Finset.range (m + 1), l ^ k * d k := by
  induction m with
  | zero => simp [mixture]
  | succ m ih =>
    rw [Finset.sum_range_succ, ← ih]
    simp only [mixture, Finset.sum_range_succ, pow_succ]
    ring

/-- C192: in a chained episode that ends, the advantage of step `t` from the general branch of `store_episode` is the mixture of the advantages for
1, 2, … steps up to the end. -/
theorem C192_mixture (g l : R) (V : S → R) (ep : List (Tr R S)) (hc : Chained ep) (he : Ends ep) (t : Nat) (h : t < ep.length) :
    (gaeGeneral g l V ep)[t]? = some (mixture l (ep.length - t - 1) (nstepAdvantage g V ep t)) := by
  have hA : mixture l (ep.length - t - 1) (nstepAdvantage g V ep t) =
      mixture l (ep.length - t - 1) (fun n => ∑ k ∈ Finset.range n, g ^ k * deltaAt g V ep (t + k)) := by
    unfold mixture
    rw [nstepAdvantage_eq g V hc he t (ep.length - t - 1 + 1) (by omega)]
    congr 2
    apply Finset.sum_congr rfl
    intro n hn
    rw [Finset.mem_range] at hn
    rw [nstepAdvantage_eq g V hc he t (n + 1) (by omega)]
  rw [hA, mixture_sums, gaeGeneral_get g l V ep t h, gaeLoop_first g l V _ (chained_drop hc t), gaeSum_ends g l V _ (ends_drop he t h), List.length_drop]
  congr 1
  rw [show ep.length - t - 1 + 1 = ep.length - t by omega]
  apply Finset.sum_congr rfl
  intro k _
  rw [mul_pow]
  simp only [deltaAt, List.getElem?_drop]
  ring

/-- C192: the same for the branches together, so also for `gae_lambda` 0 and 1. -/
theorem C192_gae [DecidableEq R] (g l : R) (V : S → R) (ep : List (Tr R S)) (hc : Chained ep) (he : Ends ep) (t : Nat) (h : t < ep.length) :
    (gae g l V ep)[t]? = some (mixture l (ep.length - t - 1) (nstepAdvantage g V ep t)) := by
  rw [← C192_mixture g l V ep hc he t h]
  congr 1
  unfold gae
  split
  · rename_i hl
    subst hl
    apply List.ext_getElem?
    intro t
    by_cases h : t < ep.length
    · rw [gaeGeneral_get g 1 V ep t h, gaeLoop_first g 1 V _ (chained_drop hc t), gaeSum_one g V _ (chained_drop hc t) ep[t] (by simp [h])]
      unfold gaeOne
      rw [List.getElem?_zipWith, values_get g _ t (by simpa using h), List.getElem?_eq_getElem h, List.map_drop]
    · rw [List.getElem?_eq_none (by simp [gaeOne, values_length]; omega), List.getElem?_eq_none (by unfold gaeGeneral; rw [gaeLoop_length]; omega)]
  · split
    · rename_i hl
      subst hl
      apply List.ext_getElem?
      intro t
      by_cases h : t < ep.length
      · rw [gaeGeneral_get g 0 V ep t h, gaeLoop_first g 0 V _ (chained_drop hc t), gaeSum_zero g V _ (ends_drop he t h) ep[t] (by simp [h])]
        unfold gaeZero
        rw [List.getElem?_map, List.getElem?_eq_getElem h]
        rfl
      · rw [List.getElem?_eq_none (by simp [gaeZero]; omega), List.getElem?_eq_none (by unfold gaeGeneral; rw [gaeLoop_length]; omega)]
    · rfl

/-- Non-vacuity: three steps, the last terminal. -/
example : Chained ([⟨0, 1, 1, false⟩, ⟨1, 2, 2, false⟩, ⟨2, 9, 4, true⟩] : List (Tr Rat Nat)) ∧
    Ends ([⟨0, 1, 1, false⟩, ⟨1, 2, 2, false⟩, ⟨2, 9, 4, true⟩] : List (Tr Rat Nat)) := by
  refine ⟨⟨rfl, rfl, rfl, rfl, trivial⟩, ?_⟩
  intro tr h
  simp at h
  subst h
  rfl

example : gae (1 / 2 : Rat) (1 / 2) (fun s : Nat => (s : Rat)) [⟨0, 1, 1, false⟩, ⟨1, 2, 2, false⟩, ⟨2, 9, 4, true⟩] = [17 / 8, 5 / 2, 2] := by
  decide +kernel

/-- The mixture does mix: with `l = 1/2` the three estimates of step 0 get the weights 1/2, 1/4, 1/4. -/
example (A : Nat → Rat) : mixture (1 / 2 : Rat) 2 A = 1 / 2 * A 1 + 1 / 4 * A 2 + 1 / 4 * A 3 := by
  simp only [mixture, Finset.sum_range_succ, Finset.sum_range_zero]
  ring

end Machin.Returns
