import Verif.Replay.Count
import Verif.Replay.PropsUniform
import Mathlib.Logic.Equiv.Fin.Basic
import Mathlib.Algebra.BigOperators.Field

/-! # Averages over the outcomes of the random generators of the members -/

namespace Machin.Dist

open Replay

/-- The average of a number over all outcomes, which are equally likely. -/
def meanOf {Ω : Type} [Fintype Ω] (f : Ω → ℚ) : ℚ := (∑ o, f o) / Fintype.card Ω

theorem meanOf_sum {Ω I : Type} [Fintype Ω] [Fintype I] (f : I → Ω → ℚ) : meanOf (fun o => ∑ i, f i o) = ∑ i, meanOf (f i) := by
  unfold meanOf
  rw [Finset.sum_comm, Finset.sum_div]

theorem meanOf_ite {Ω : Type} [Fintype Ω] (p : Ω → Bool) : meanOf (fun o => if p o = true then 1 else 0) = shareOf p := by
  unfold meanOf shareOf
  rw [Finset.card_filter]
  push_cast
  rfl

theorem meanOf_const {Ω : Type} [Fintype Ω] [Nonempty Ω] (c : ℚ) : meanOf (fun _ : Ω => c) = c := by
  unfold meanOf
  have : (Fintype.card Ω : ℚ) ≠ 0 := by exact_mod_cast Fintype.card_ne_zero
  rw [Finset.sum_const, Finset.card_univ, nsmul_eq_mul, mul_div_cancel_left₀ _ this]

/-- The average of what one member does is the same in the group as alone. -/
theorem meanOf_eval {P : Nat} (X : Fin P → Type) [∀ m, Fintype (X m)] [∀ m, Nonempty (X m)] (m : Fin P) (g : X m → ℚ) :
    meanOf (fun F : ∀ m, X m => g (F m)) = meanOf g := by
  unfold meanOf
  let e := Equiv.piSplitAt m X
  rw [Fintype.card_congr e, Fintype.card_prod, ← Equiv.sum_comp e.symm, Fintype.sum_prod_type]
  have h : ∀ (x : X m) (r : ∀ j : {j // j ≠ m}, X j), g (e.symm (x, r) m) = g x := by
    intro x r
    have : e.symm (x, r) m = x := by
      have := congrArg Prod.fst (e.apply_symm_apply (x, r))
      exact this
    rw [this]
  have h2 : ∀ x : X m, ∑ r : (∀ j : {j // j ≠ m}, X j), g (e.symm (x, r) m) = Fintype.card (∀ j : {j // j ≠ m}, X j) * g x := by
    intro x
    rw [Finset.sum_congr rfl fun r _ => h x r, Finset.sum_const, Finset.card_univ, nsmul_eq_mul]
  rw [Finset.sum_congr rfl fun x _ => h2 x, ← Finset.mul_sum]
  have hc : (Fintype.card (∀ j : {j // j ≠ m}, X j) : ℚ) ≠ 0 := by exact_mod_cast Fintype.card_ne_zero
  have hx : (Fintype.card (X m) : ℚ) ≠ 0 := by exact_mod_cast Fintype.card_ne_zero
  push_cast
  field_simp

/-- What the members do together is in expectation the sum of what they do alone. -/
theorem meanOf_group {P : Nat} (X : Fin P → Type) [∀ m, Fintype (X m)] [∀ m, Nonempty (X m)] (rows : ∀ m, X m → ℚ) (batch : (∀ m, X m) → ℚ) (v : Fin P → ℚ)
    (hb : ∀ F, batch F = ∑ m, rows m (F m)) (hv : ∀ m, meanOf (rows m) = v m) : meanOf batch = ∑ m, v m := by
  have e : batch = fun F => ∑ m, rows m (F m) := funext hb
  rw [e, meanOf_sum (fun m (F : ∀ m, X m) => rows m (F m))]
  exact Finset.sum_congr rfl fun m _ => (meanOf_eval X m (rows m)).trans (hv m)

theorem countP_take_ofFn {τ : Type} (p : τ → Bool) : ∀ {K : Nat} (g : Fin K → τ) (k : Nat),
    (((List.ofFn g).take k).countP p : ℚ) = ∑ j : Fin K, if j.val < k then (if p (g j) = true then (1 : ℚ) else 0) else 0 := by
  intro K
  induction K with
  | zero => intro g k; simp
  | succ K ih =>
    intro g k
    cases k with
    | zero => simp
    | succ k =>
      rw [List.ofFn_succ, List.take_succ_cons, List.countP_cons, Fin.sum_univ_succ, Nat.cast_add, ih]
      rw [add_comm]
      congr 1
      · by_cases h : p (g 0) = true <;> simp [h]
      · simp

theorem sum_first {K k : Nat} (hk : k ≤ K) (c : ℚ) : (∑ j : Fin K, if j.val < k then c else 0) = k * c := by
  rw [← Finset.sum_filter, Finset.sum_const, nsmul_eq_mul]
  congr 2
  have := card_lt hk
  simpa using this

/-- The rows with some property in a batch of `k` rows each of which is uniform. -/
theorem mean_rows {Ω τ : Type} [Fintype Ω] [Nonempty Ω] (live : List τ) (p : τ → Bool) {K k : Nat} (hk : k ≤ K)
    (g : Ω → Fin K → Fin live.length)
    (hg : ∀ (j : Fin K) (i i' : Fin live.length), (Finset.univ.filter fun o => g o j = i).card = (Finset.univ.filter fun o => g o j = i').card) :
    meanOf (fun o => (((List.ofFn fun j => live[g o j]).take k).countP p : ℚ)) = k * ((live.countP p : ℚ) / live.length) := by
  have e : (fun o => (((List.ofFn fun j => live[g o j]).take k).countP p : ℚ)) =
      fun o => ∑ j : Fin K, if j.val < k then (if p live[g o j] = true then (1 : ℚ) else 0) else 0 := by
    funext o
    exact countP_take_ofFn p _ k
  rw [e, meanOf_sum]
  have h : ∀ j : Fin K, meanOf (fun o => if j.val < k then (if p live[g o j] = true then (1 : ℚ) else 0) else 0) =
      if j.val < k then (live.countP p : ℚ) / live.length else 0 := by
    intro j
    by_cases hj : j.val < k
    · simp only [hj, if_true]
      rw [meanOf_ite (fun o => p live[g o j]), shareOf_fibers (fun o => g o j) (hg j) (fun i : Fin live.length => p live[i]), card_countP]
    · simp only [hj, if_false]
      exact meanOf_const 0
  rw [Finset.sum_congr rfl fun j _ => h j, sum_first hk]

end Machin.Dist
