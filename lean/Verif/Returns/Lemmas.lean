import Verif.Returns.Spec
import Mathlib.Algebra.BigOperators.Group.Finset.Basic
import Mathlib.Algebra.BigOperators.Ring.Finset
import Mathlib.Algebra.BigOperators.Intervals
import Mathlib.Tactic.Ring
import Mathlib.Tactic.Common

/-! # Lemmas about values and advantages -/

namespace Machin.Returns

open Spec

variable {R S : Type} [CommRing R]

theorem discounted_succ (g : R) (n : Nat) (xs : Nat → R) :
    discounted g (n + 1) xs = xs 0 + g * discounted g n (fun k => xs (k + 1)) := by
  unfold discounted
  rw [Finset.sum_range_succ', Finset.mul_sum]
  rw [add_comm]
  congr 1
  · simp
  · apply Finset.sum_congr rfl
    intro k _
    ring

theorem horner_eq (g : R) (rs : List R) : horner g rs = discounted g rs.length (rewardAt rs) := by
  induction rs with
  | nil => simp [horner, discounted]
  | cons r rs ih =>
    rw [horner, List.length_cons, discounted_succ, ih]
    have : (fun k => rewardAt (r :: rs) (k + 1)) = rewardAt rs := by funext k; simp [rewardAt]
    rw [this]
    simp [rewardAt]
    ring

theorem values_cons (g r : R) (rs : List R) :
    values g (r :: rs) = horner g (r :: rs) :: values g rs := by
  induction rs generalizing r with
  | nil => simp [values, horner]
  | cons r' rest ih =>
    rw [values]
    rw [ih r']
    simp only [horner]

theorem values_length (g : R) (rs : List R) : (values g rs).length = rs.length := by
  induction rs with
  | nil => rfl
  | cons r rs ih => rw [values_cons]; simp [ih]

theorem values_get (g : R) (rs : List R) (t : Nat) (h : t < rs.length) :
    (values g rs)[t]? = some (horner g (rs.drop t)) := by
  induction rs generalizing t with
  | nil => simp at h
  | cons r rs ih =>
    rw [values_cons]
    cases t with
    | zero => simp
    | succ t =>
      simp only [List.getElem?_cons_succ, List.drop_succ_cons]
      exact ih t (by simpa using h)

theorem nstep_get (g : R) (n : Nat) (rs : List R) (t : Nat) (h : t < rs.length) :
    (nstep g n rs)[t]? = some (horner g ((rs.drop t).take n)) := by
  induction rs generalizing t with
  | nil => simp at h
  | cons r rs ih =>
    rw [nstep]
    cases t with
    | zero =>
      simp only [List.getElem?_cons_zero, List.drop_zero, Option.some.injEq]
      congr 1
      rw [List.take_eq_take_iff]
      simp
    | succ t =>
      simp only [List.getElem?_cons_succ, List.drop_succ_cons]
      exact ih t (by simpa using h)

theorem rewardAt_drop (rs : List R) (t k : Nat) : rewardAt (rs.drop t) k = rewardAt rs (t + k) := by
  simp [rewardAt, List.getElem?_drop]

theorem discounted_congr (g : R) (n : Nat) (xs ys : Nat → R) (h : ∀ k < n, xs k = ys k) :
    discounted g n xs = discounted g n ys := by
  unfold discounted
  apply Finset.sum_congr rfl
  intro k hk
  rw [h k (Finset.mem_range.mp hk)]

theorem gaeLoop_length (g l : R) (V : S → R) (ep : List (Tr R S)) : (gaeLoop g l V ep).2.2.length = ep.length := by
  induction ep with
  | nil => rfl
  | cons tr ep ih => simp [gaeLoop, ih]

/-- The first component of the loop is the value of the first state. -/
theorem gaeLoop_critic (g l : R) (V : S → R) (tr : Tr R S) (ep : List (Tr R S)) : (gaeLoop g l V (tr :: ep)).1 = V tr.state := rfl

/-- The advantage of the first step, as the loop computes it: errors of the chained steps, where the last step has no value
after it. -/
def lastDelta (V : S → R) (tr : Tr R S) : R := tr.reward - V tr.state

/-- Sum of the errors with the last one as the loop computes it. -/
def gaeSum (g l : R) (V : S → R) : List (Tr R S) → R
  | [] => 0
  | [tr] => lastDelta V tr
  | a :: b :: rest => delta g V a + g * l * gaeSum g l V (b :: rest)

theorem gaeLoop_first (g l : R) (V : S → R) (ep : List (Tr R S)) (hc : Chained ep) :
    (gaeLoop g l V ep).2.1 = gaeSum g l V ep := by
  induction ep with
  | nil => rfl
  | cons a ep ih =>
    cases ep with
    | nil =>
      simp only [gaeLoop, gaeSum, lastDelta]
      ring
    | cons b rest =>
      have hc' := hc.2.2
      have h1 := ih hc'
      have h2 := gaeLoop_critic g l V b rest
      rw [gaeLoop]
      simp only [gaeSum]
      rw [h1, h2, delta, hc.2.1, hc.1]
      simp only [notTerm, Bool.false_eq_true, if_false]
      ring

theorem gaeGeneral_get (g l : R) (V : S → R) (ep : List (Tr R S)) (t : Nat) (h : t < ep.length) :
    (gaeGeneral g l V ep)[t]? = some (gaeLoop g l V (ep.drop t)).2.1 := by
  induction ep generalizing t with
  | nil => simp at h
  | cons a ep ih =>
    cases t with
    | zero => simp [gaeGeneral, gaeLoop]
    | succ t =>
      have := ih t (by simpa using h)
      unfold gaeGeneral at this ⊢
      simpa [gaeLoop] using this

theorem chained_drop {ep : List (Tr R S)} (h : Chained ep) (t : Nat) : Chained (ep.drop t) := by
  induction t generalizing ep with
  | zero => exact h
  | succ t ih =>
    cases ep with
    | nil => simpa using h
    | cons a ep =>
      rw [List.drop_succ_cons]
      apply ih
      cases ep with
      | nil => trivial
      | cons b rest => exact h.2.2

theorem ends_drop {ep : List (Tr R S)} (h : Ends ep) (t : Nat) (ht : t < ep.length) : Ends (ep.drop t) := by
  intro tr htr
  apply h
  rw [List.getLast?_drop, if_neg (by omega)] at htr
  exact htr

/-- With a terminal last step the sum is the specified one. -/
theorem gaeSum_ends (g l : R) (V : S → R) (ep : List (Tr R S)) (he : Ends ep) :
    gaeSum g l V ep = discounted (g * l) ep.length (deltaAt g V ep) := by
  induction ep with
  | nil => simp [gaeSum, discounted]
  | cons a ep ih =>
    rw [List.length_cons, discounted_succ]
    have e0 : deltaAt g V (a :: ep) 0 = delta g V a := by simp [deltaAt]
    have e1 : (fun k => deltaAt g V (a :: ep) (k + 1)) = deltaAt g V ep := by funext k; simp [deltaAt]
    rw [e0, e1]
    cases ep with
    | nil =>
      have ht : a.terminal = true := he a rfl
      simp [gaeSum, lastDelta, delta, ht, notTerm, discounted]
    | cons b rest =>
      have := ih (by intro tr htr; exact he tr (by simpa using htr))
      rw [gaeSum, this]

/-- With a last step that is not terminal, the value after it is missing. -/
theorem gaeSum_truncated (g l : R) (V : S → R) (ep : List (Tr R S)) (last : Tr R S) (hl : ep.getLast? = some last)
    (ht : last.terminal = false) :
    gaeSum g l V ep = discounted (g * l) ep.length (deltaAt g V ep) - (g * l) ^ (ep.length - 1) * (g * V last.next) := by
  induction ep with
  | nil => cases hl
  | cons a ep ih =>
    rw [List.length_cons, discounted_succ]
    have e0 : deltaAt g V (a :: ep) 0 = delta g V a := by simp [deltaAt]
    have e1 : (fun k => deltaAt g V (a :: ep) (k + 1)) = deltaAt g V ep := by funext k; simp [deltaAt]
    rw [e0, e1]
    cases ep with
    | nil =>
      have hla : a = last := by simpa using hl
      subst hla
      simp only [gaeSum, lastDelta, delta, ht, notTerm, discounted, Bool.false_eq_true, if_false, List.length_nil, Finset.range_zero,
        Finset.sum_empty]
      ring
    | cons b rest =>
      have := ih (by simpa using hl)
      rw [gaeSum, this]
      have e2 : (b :: rest).length + 1 - 1 = ((b :: rest).length - 1) + 1 := by simp
      rw [e2, pow_succ]
      ring

/-- At `lambda = 1` the sum is the value minus the critic's value of the first state. -/
theorem gaeSum_one (g : R) (V : S → R) (ep : List (Tr R S)) (hc : Chained ep) (tr : Tr R S) (h : ep.head? = some tr) :
    gaeSum g 1 V ep = horner g (ep.map (·.reward)) - V tr.state := by
  induction ep generalizing tr with
  | nil => cases h
  | cons a ep ih =>
    have : a = tr := by simpa using h
    subst this
    cases ep with
    | nil => simp [gaeSum, lastDelta, horner]
    | cons b rest =>
      have := ih hc.2.2 b rfl
      rw [gaeSum, this, delta, hc.1, hc.2.1]
      simp only [notTerm, Bool.false_eq_true, if_false, List.map_cons, horner]
      ring

/-- At `lambda = 0` the sum is the error of the first step. -/
theorem gaeSum_zero (g : R) (V : S → R) (ep : List (Tr R S)) (he : Ends ep) (tr : Tr R S) (h : ep.head? = some tr) :
    gaeSum g 0 V ep = delta g V tr := by
  cases ep with
  | nil => cases h
  | cons a ep =>
    have : a = tr := by simpa using h
    subst this
    cases ep with
    | nil =>
      have ht : a.terminal = true := he a rfl
      simp [gaeSum, lastDelta, delta, ht, notTerm]
    | cons b rest => rw [gaeSum]; ring

end Machin.Returns
