import Verif.Trpo.Props
import Mathlib.LinearAlgebra.BilinearMap
import Mathlib.LinearAlgebra.Dimension.Finite
import Mathlib.Tactic.Linarith

/-! # Helper lemmas on the conjugate gradient method of TRPO in exact arithmetic -/

namespace Machin.Trpo

namespace CgSeq

section
variable {K V : Type} [Field K] [LinearOrder K] [IsStrictOrderedRing K] [AddCommGroup V] [Module K V]

/-- The states of the loop without its exit, with `eps = 0`. -/
def seq (A : V →ₗ[K] V) (dot : V →ₗ[K] V →ₗ[K] K) (b : V) : Nat → Cg K V
  | 0 => ⟨0, b, b, dot b b⟩
  | k + 1 => cgStep A (fun x y => dot x y) 0 (seq A dot b k)

variable (A : V →ₗ[K] V) (dot : V →ₗ[K] V →ₗ[K] K) (b : V)

def al (k : Nat) : K := (seq A dot b k).rr / dot (seq A dot b k).p (A (seq A dot b k).p)
def be (k : Nat) : K := (seq A dot b (k + 1)).rr / (seq A dot b k).rr

theorem seq_r (k : Nat) : (seq A dot b (k + 1)).r = (seq A dot b k).r - al A dot b k • A (seq A dot b k).p := by
  simp [seq, cgStep, al]

theorem seq_p (k : Nat) : (seq A dot b (k + 1)).p = (seq A dot b (k + 1)).r + be A dot b k • (seq A dot b k).p := by
  simp [seq, cgStep, be]

theorem seq_rr (k : Nat) : (seq A dot b k).rr = dot (seq A dot b k).r (seq A dot b k).r := by
  cases k <;> rfl

variable (hs : ∀ x y, dot x y = dot y x) (hp : ∀ x, x ≠ 0 → 0 < dot x x)
  (hAs : ∀ x y, dot x (A y) = dot (A x) y) (hAp : ∀ x, x ≠ 0 → 0 < dot x (A x))

include hp in
theorem r_zero (k : Nat) (h : (seq A dot b k).rr = 0) : (seq A dot b k).r = 0 := by
  by_contra hc
  have := hp _ hc
  rw [← seq_rr, h] at this
  exact lt_irrefl _ this

include hp in
theorem p_zero (k : Nat) (h : (seq A dot b k).rr = 0) : (seq A dot b k).p = 0 := by
  have hr := r_zero A dot b hp k h
  cases k with
  | zero => exact hr
  | succ k => rw [seq_p, hr, be, h]; simp

include hp in
theorem next_zero (k : Nat) (h : (seq A dot b k).rr = 0) : (seq A dot b (k + 1)).rr = 0 := by
  rw [seq_rr, seq_r, r_zero A dot b hp k h, p_zero A dot b hp k h]
  simp

/-- What is known up to step `k`. -/
structure Conj (k : Nat) : Prop where
  rr : ∀ i j, i < j → j ≤ k → dot (seq A dot b i).r (seq A dot b j).r = 0
  pp : ∀ i j, i < j → j ≤ k → dot (seq A dot b i).p (A (seq A dot b j).p) = 0
  pr : ∀ i j, i < j → j ≤ k → dot (seq A dot b i).p (seq A dot b j).r = 0
  self : ∀ j, j ≤ k → dot (seq A dot b j).p (seq A dot b j).r = (seq A dot b j).rr

include hs hp hAs hAp in
theorem conj (k : Nat) : Conj A dot b k := by
  induction k with
  | zero =>
    refine ⟨by omega, by omega, by omega, ?_⟩
    intro j hj
    obtain rfl : j = 0 := by omega
    rfl
  | succ k ih =>
    have hal : ∀ j, j ≤ k → al A dot b j * dot (seq A dot b j).p (A (seq A dot b j).p) = (seq A dot b j).rr := by
      intro j hj
      by_cases h0 : dot (seq A dot b j).p (A (seq A dot b j).p) = 0
      · have hp0 : (seq A dot b j).p = 0 := by
          by_contra hc
          have := hAp _ hc
          rw [h0] at this
          exact lt_irrefl _ this
        have := ih.self j hj
        rw [hp0] at this ⊢
        simpa using this
      · rw [al, div_mul_cancel₀ _ h0]
    have hbe : be A dot b k * (seq A dot b k).rr = (seq A dot b (k + 1)).rr := by
      by_cases h0 : (seq A dot b k).rr = 0
      · rw [h0, next_zero A dot b hp k h0, mul_zero]
      · rw [be, div_mul_cancel₀ _ h0]
    have hpr : ∀ i, i ≤ k → dot (seq A dot b i).p (seq A dot b (k + 1)).r = 0 := by
      intro i hi
      rw [seq_r, map_sub, map_smul, smul_eq_mul]
      rcases Nat.lt_or_ge i k with h | h
      · rw [ih.pr i k h le_rfl, ih.pp i k h le_rfl]; simp
      · obtain rfl : i = k := by omega
        rw [ih.self i le_rfl, hal i le_rfl, sub_self]
    have hrr : ∀ i, i ≤ k → dot (seq A dot b i).r (seq A dot b (k + 1)).r = 0 := by
      intro i hi
      cases i with
      | zero => exact hpr 0 hi
      | succ i =>
        have e : (seq A dot b (i + 1)).r = (seq A dot b (i + 1)).p - be A dot b i • (seq A dot b i).p := by
          rw [seq_p]; abel
        rw [e, map_sub, map_smul, LinearMap.sub_apply, LinearMap.smul_apply, hpr _ hi, hpr _ (by omega)]
        simp
    have hself : dot (seq A dot b (k + 1)).p (seq A dot b (k + 1)).r = (seq A dot b (k + 1)).rr := by
      conv_lhs => rw [seq_p]
      rw [map_add, map_smul, LinearMap.add_apply, LinearMap.smul_apply, hpr k le_rfl, seq_rr]
      simp
    have hpp : ∀ i, i ≤ k → dot (seq A dot b i).p (A (seq A dot b (k + 1)).p) = 0 := by
      intro i hi
      by_cases ha : al A dot b i = 0
      · have : (seq A dot b i).rr = 0 := by rw [← hal i hi, ha, zero_mul]
        rw [p_zero A dot b hp i this]
        simp
      · have e : dot (seq A dot b i).p (A (seq A dot b (k + 1)).p)
            = dot (A (seq A dot b i).p) (seq A dot b (k + 1)).r + be A dot b k * dot (seq A dot b i).p (A (seq A dot b k).p) := by
          rw [seq_p, map_add, map_smul, map_add, map_smul, hAs, smul_eq_mul]
        have e2 : al A dot b i * dot (A (seq A dot b i).p) (seq A dot b (k + 1)).r
            = dot (seq A dot b i).r (seq A dot b (k + 1)).r - dot (seq A dot b (i + 1)).r (seq A dot b (k + 1)).r := by
          rw [seq_r A dot b i, map_sub, map_smul, LinearMap.sub_apply, LinearMap.smul_apply, smul_eq_mul]
          ring
        apply (mul_eq_zero.mp (?_ : al A dot b i * _ = 0)).resolve_left ha
        rw [e, mul_add, e2, hrr i hi]
        rcases Nat.lt_or_ge i k with h | h
        · rw [hrr (i + 1) (by omega), ih.pp i k h le_rfl]; simp
        · obtain rfl : i = k := by omega
          rw [← seq_rr, mul_left_comm, hal i le_rfl, hbe]
          simp
    refine ⟨?_, ?_, ?_, ?_⟩
    · intro i j hij hj
      rcases Nat.lt_or_ge j (k + 1) with h | h
      · exact ih.rr i j hij (by omega)
      · obtain rfl : j = k + 1 := by omega
        exact hrr i (by omega)
    · intro i j hij hj
      rcases Nat.lt_or_ge j (k + 1) with h | h
      · exact ih.pp i j hij (by omega)
      · obtain rfl : j = k + 1 := by omega
        exact hpp i (by omega)
    · intro i j hij hj
      rcases Nat.lt_or_ge j (k + 1) with h | h
      · exact ih.pr i j hij (by omega)
      · obtain rfl : j = k + 1 := by omega
        exact hpr i (by omega)
    · intro j hj
      rcases Nat.lt_or_ge j (k + 1) with h | h
      · exact ih.self j (by omega)
      · obtain rfl : j = k + 1 := by omega
        exact hself

include hs hp hAs hAp in
theorem finite [Module.Finite K V] : (seq A dot b (Module.finrank K V)).rr = 0 := by
  by_contra hne
  have hall : ∀ j, j ≤ Module.finrank K V → (seq A dot b j).rr ≠ 0 := by
    intro j hj h0
    have : ∀ m, (seq A dot b (j + m)).rr = 0 := by
      intro m
      induction m with
      | zero => exact h0
      | succ m ih => exact next_zero A dot b hp _ ih
    apply hne
    have := this (Module.finrank K V - j)
    rwa [Nat.add_sub_cancel' hj] at this
  have hc := conj A dot b hs hp hAs hAp (Module.finrank K V)
  have hort : ∀ i j : Fin (Module.finrank K V + 1), i ≠ j → dot (seq A dot b i).r (seq A dot b j).r = 0 := by
    intro i j hij
    rcases Nat.lt_or_ge i.1 j.1 with h | h
    · exact hc.rr i j h (by omega)
    · rw [hs]
      exact hc.rr j i (by have : i.1 ≠ j.1 := fun e => hij (Fin.ext e); omega) (by omega)
  have hli : LinearIndependent K (fun i : Fin (Module.finrank K V + 1) => (seq A dot b i).r) := by
    rw [Fintype.linearIndependent_iff]
    intro g hg i
    have h1 := congrArg (fun v => dot v (seq A dot b i).r) hg
    simp only [map_sum, map_smul, LinearMap.sum_apply, LinearMap.smul_apply, map_zero, LinearMap.zero_apply, smul_eq_mul] at h1
    rw [Finset.sum_eq_single i] at h1
    · rw [← seq_rr] at h1
      exact (mul_eq_zero.mp h1).resolve_right (hall i (by omega))
    · intro j _ hj
      rw [hort j i hj, mul_zero]
    · intro h; exact absurd (Finset.mem_univ i) h
  have := hli.fintype_card_le_finrank
  simp at this

/-- What the loop returns: the state after some number of iterations, below the threshold if it left early, and all of them otherwise. -/
theorem loop_seq (thr : K) (n k : Nat) :
    ∃ m, (cgLoop A (fun x y => dot x y) 0 thr n (seq A dot b k)).1 = seq A dot b (k + m) ∧ m ≤ n ∧
      ((cgLoop A (fun x y => dot x y) 0 thr n (seq A dot b k)).2 = false → m = n ∧ ∀ j, k < j → j ≤ k + n → ¬ (seq A dot b j).rr < thr) := by
  induction n generalizing k with
  | zero => exact ⟨0, rfl, le_rfl, fun _ => ⟨rfl, by omega⟩⟩
  | succ n ih =>
    unfold cgLoop
    simp only
    change ∃ m, (if (seq A dot b (k + 1)).rr < thr then (seq A dot b (k + 1), true) else
      cgLoop A (fun x y => dot x y) 0 thr n (seq A dot b (k + 1))).1 = _ ∧ _ ∧ ((if (seq A dot b (k + 1)).rr < thr then (seq A dot b (k + 1), true) else
      cgLoop A (fun x y => dot x y) 0 thr n (seq A dot b (k + 1))).2 = false → _)
    split
    · exact ⟨1, rfl, by omega, by simp⟩
    · rename_i hlt
      obtain ⟨m, h1, h2, h3⟩ := ih (k + 1)
      refine ⟨m + 1, by rw [h1]; congr 1; omega, by omega, ?_⟩
      intro hf
      obtain ⟨h4, h5⟩ := h3 hf
      refine ⟨by omega, ?_⟩
      intro j hj hj'
      rcases Nat.lt_or_ge (k + 1) j with h | h
      · exact h5 j h (by omega)
      · obtain rfl : j = k + 1 := by omega
        exact hlt

end

end CgSeq

end Machin.Trpo
