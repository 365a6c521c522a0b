import Verif.Replay.Lemmas
import Mathlib.Data.Fintype.Pi
import Mathlib.Data.Fintype.Prod
import Mathlib.Data.Fintype.Perm
import Mathlib.Algebra.BigOperators.Fin
import Mathlib.Data.Fintype.BigOperators
import Mathlib.Data.Rat.Defs
import Mathlib.Algebra.Order.Field.Rat
import Mathlib.Tactic.FieldSimp
import Mathlib.Tactic.Ring

/-! # Counting outcomes of the random generator -/

namespace Machin.Replay

/-- The share of the outcomes with some property, all outcomes being equally likely. -/
def shareOf {Ω : Type} [Fintype Ω] (p : Ω → Bool) : ℚ := ((Finset.univ.filter fun o => p o = true).card : ℚ) / Fintype.card Ω

theorem shareOf_fibers {Ω : Type} [Fintype Ω] [Nonempty Ω] {n : Nat} (g : Ω → Fin n)
    (hg : ∀ i i', (Finset.univ.filter fun o => g o = i).card = (Finset.univ.filter fun o => g o = i').card) (p : Fin n → Bool) :
    shareOf (fun o => p (g o)) = ((Finset.univ.filter fun i => p i = true).card : ℚ) / n := by
  obtain ⟨o₀⟩ := ‹Nonempty Ω›
  have hn : (n : ℚ) ≠ 0 := by
    have := (g o₀).isLt
    have : 0 < n := by omega
    exact_mod_cast this.ne'
  have h1 : (Finset.univ.filter fun o => p (g o) = true).card =
      ∑ i ∈ Finset.univ.filter (fun i => p i = true), (Finset.univ.filter fun o => g o = i).card := by
    rw [Finset.card_eq_sum_card_fiberwise (f := g) (t := Finset.univ.filter fun i => p i = true)]
    · apply Finset.sum_congr rfl
      intro i hi
      congr 1
      ext o
      simp only [Finset.mem_filter, Finset.mem_univ, true_and] at hi ⊢
      constructor
      · exact fun h => h.2
      · intro h; exact ⟨by rw [h]; exact hi, h⟩
    · intro o ho
      simpa using ho
  have h2 : Fintype.card Ω = ∑ i : Fin n, (Finset.univ.filter fun o => g o = i).card := by
    rw [← Finset.card_univ]
    exact Finset.card_eq_sum_card_fiberwise (f := g) (t := Finset.univ) (by intro x _; simp)
  have h3 : Fintype.card Ω = n * (Finset.univ.filter fun o => g o = g o₀).card := by
    rw [h2, Finset.sum_congr rfl fun i _ => hg i (g o₀)]
    simp
  have h4 : (Finset.univ.filter fun o => p (g o) = true).card =
      (Finset.univ.filter fun i => p i = true).card * (Finset.univ.filter fun o => g o = g o₀).card := by
    rw [h1, Finset.sum_congr rfl fun i _ => hg i (g o₀)]
    simp
  have hc : ((Finset.univ.filter fun o => g o = g o₀).card : ℚ) ≠ 0 := by
    have : 0 < (Finset.univ.filter fun o => g o = g o₀).card := Finset.card_pos.2 ⟨o₀, by simp⟩
    exact_mod_cast this.ne'
  unfold shareOf
  rw [h4, h3]
  push_cast
  field_simp

theorem fibers_choice {k n : Nat} (j : Fin k) (i i' : Fin n) :
    (Finset.univ.filter fun f : Fin k → Fin n => f j = i).card = (Finset.univ.filter fun f : Fin k → Fin n => f j = i').card := by
  refine Finset.card_bij' (fun f _ => fun x => Equiv.swap i i' (f x)) (fun f _ => fun x => Equiv.swap i i' (f x)) ?_ ?_ ?_ ?_
  · intro f h; simp only [Finset.mem_filter, Finset.mem_univ, true_and] at h ⊢; rw [h]; exact Equiv.swap_apply_left i i'
  · intro f h; simp only [Finset.mem_filter, Finset.mem_univ, true_and] at h ⊢; rw [h]; exact Equiv.swap_apply_right i i'
  · intro f _; funext x; simp
  · intro f _; funext x; simp

theorem fibers_perm {n : Nat} (j : Fin n) (i i' : Fin n) :
    (Finset.univ.filter fun f : Equiv.Perm (Fin n) => f j = i).card = (Finset.univ.filter fun f : Equiv.Perm (Fin n) => f j = i').card := by
  refine Finset.card_bij' (fun f _ => f.trans (Equiv.swap i i')) (fun f _ => f.trans (Equiv.swap i i')) ?_ ?_ ?_ ?_
  · intro f h; simp only [Finset.mem_filter, Finset.mem_univ, true_and] at h ⊢; simp [h]
  · intro f h; simp only [Finset.mem_filter, Finset.mem_univ, true_and] at h ⊢; simp [h]
  · intro f _; ext x; simp
  · intro f _; ext x; simp

theorem fibers_perm_symm {n : Nat} (j : Fin n) (i i' : Fin n) :
    (Finset.univ.filter fun f : Equiv.Perm (Fin n) => f.symm j = i).card = (Finset.univ.filter fun f : Equiv.Perm (Fin n) => f.symm j = i').card := by
  have : ∀ i, (Finset.univ.filter fun f : Equiv.Perm (Fin n) => f.symm j = i).card = (Finset.univ.filter fun f : Equiv.Perm (Fin n) => f j = i).card := by
    intro i
    refine Finset.card_bij' (fun f _ => f.symm) (fun f _ => f.symm) ?_ ?_ ?_ ?_ <;> intro f h <;> simp_all
  rw [this, this, fibers_perm j i i']

theorem card_countP {τ : Type} (l : List τ) (p : τ → Bool) : (Finset.univ.filter fun i : Fin l.length => p l[i] = true).card = l.countP p := by
  induction l with
  | nil => simp
  | cons x l ih =>
    rw [Finset.card_filter] at ih ⊢
    rw [List.countP_cons, ← ih]
    show ∑ i : Fin (l.length + 1), _ = _
    rw [Fin.sum_univ_succ, add_comm]
    by_cases hp : p x = true <;> simp [hp]

theorem card_lt {n k : Nat} (h : k ≤ n) : (Finset.univ.filter fun i : Fin n => decide (i.val < k) = true).card = k := by
  have : (Finset.univ.filter fun i : Fin n => decide (i.val < k) = true) = Finset.univ.map (Fin.castLEEmb h) := by
    ext i
    simp only [Finset.mem_filter, Finset.mem_univ, true_and, decide_eq_true_eq, Finset.mem_map]
    constructor
    · intro hi; exact ⟨⟨i, hi⟩, rfl⟩
    · rintro ⟨a, rfl⟩; exact a.isLt
  rw [this]
  simp

/-- Independent draws: the share of the outcomes in which every draw has its property is the product of the shares. -/
theorem shareOf_pi {K : Nat} {A : Type} [Fintype A] [DecidableEq A] (P : Fin K → A → Bool) :
    shareOf (fun f : Fin K → A => decide (∀ j, P j (f j) = true)) = ∏ j, shareOf (P j) := by
  have h : (Finset.univ.filter fun f : Fin K → A => decide (∀ j, P j (f j) = true) = true) =
      Fintype.piFinset fun j => Finset.univ.filter fun a => P j a = true := by
    ext f
    simp [Fintype.mem_piFinset]
  unfold shareOf
  rw [h, Fintype.card_piFinset, Fintype.card_fun, Finset.prod_div_distrib]
  push_cast
  simp

theorem shareOf_true {Ω : Type} [Fintype Ω] [Nonempty Ω] : shareOf (fun _ : Ω => true) = 1 := by
  have : (Fintype.card Ω : ℚ) ≠ 0 := by exact_mod_cast Fintype.card_ne_zero
  simp [shareOf, this]

/-- Draws of which only the first `k` matter. -/
theorem shareOf_first {K k : Nat} (hk : k ≤ K) {A : Type} [Fintype A] [DecidableEq A] [Nonempty A] (P : Nat → A → Bool) :
    shareOf (fun f : Fin K → A => decide (∀ j : Fin K, j.val < k → P j (f j) = true)) = ∏ j ∈ Finset.range k, shareOf (P j) := by
  have e : (fun f : Fin K → A => decide (∀ j : Fin K, j.val < k → P j (f j) = true)) =
      fun f => decide (∀ j : Fin K, (fun (j : Fin K) a => if j.val < k then P j a else true) j (f j) = true) := by
    funext f
    rw [decide_eq_decide]
    apply forall_congr'
    intro j
    by_cases hj : j.val < k <;> simp [hj]
  rw [e, shareOf_pi (fun (j : Fin K) a => if j.val < k then P j a else true)]
  have h2 : ∀ j : Fin K, shareOf (fun a => if j.val < k then P j a else true) = (fun i => if i < k then shareOf (P i) else 1) j.val := by
    intro j
    by_cases hj : j.val < k
    · simp [hj]
    · simp [hj, shareOf_true]
  rw [Finset.prod_congr rfl fun j _ => h2 j, Fin.prod_univ_eq_prod_range (fun i => if i < k then shareOf (P i) else 1) K, Finset.prod_ite]
  simp only [Finset.prod_const_one, mul_one]
  congr 1
  ext i
  simp
  omega

theorem shareOf_equiv {Ω Ω' : Type} [Fintype Ω] [Fintype Ω'] (e : Ω ≃ Ω') (p : Ω' → Bool) : shareOf (fun o => p (e o)) = shareOf p := by
  unfold shareOf
  rw [Fintype.card_congr e]
  congr 2
  refine Finset.card_bij' (fun o _ => e o) (fun o _ => e.symm o) ?_ ?_ ?_ ?_ <;> intro o h <;> simp_all

end Machin.Replay
