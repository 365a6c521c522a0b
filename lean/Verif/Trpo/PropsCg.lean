import Verif.Trpo.LemmasCg

/-! # C76: the conjugate gradient method of TRPO in exact arithmetic -/

namespace Machin.Trpo

open CgSeq

section
variable {K V : Type} [Field K] [LinearOrder K] [IsStrictOrderedRing K] [AddCommGroup V] [Module K V]

variable (A : V →ₗ[K] V) (dot : V →ₗ[K] V →ₗ[K] K) (b : V)

variable (hs : ∀ x y, dot x y = dot y x) (hp : ∀ x, x ≠ 0 → 0 < dot x x)
  (hAs : ∀ x y, dot x (A y) = dot (A x) y) (hAp : ∀ x, x ≠ 0 → 0 < dot x (A x))

include hs hp hAs hAp in
/-- C76, exactness: for every symmetric positive definite map on a space of dimension `d`, exact arithmetic, `eps = 0` and a positive threshold, `d`
iterations (or one, if `d = 0`) are enough: the loop leaves early. -/
theorem C76_enough [Module.Finite K V] (thr : K) (hthr : 0 < thr) (n : Nat) (hn : Module.finrank K V ≤ n) (hn1 : 0 < n) :
    (conjugateGradients A (fun x y => dot x y) b 0 n thr).2 = true := by
  unfold conjugateGradients
  simp only
  obtain ⟨m, _, _, h3⟩ := loop_seq A dot b thr n 0
  change (cgLoop A (fun x y => dot x y) 0 thr n (seq A dot b 0)).2 = true
  by_contra hf
  rw [Bool.not_eq_true] at hf
  obtain ⟨_, h5⟩ := h3 hf
  have hz := finite A dot b hs hp hAs hAp
  have hz' : ∀ j, (seq A dot b (Module.finrank K V + j)).rr = 0 := by
    intro j
    induction j with
    | zero => exact hz
    | succ j ih => exact next_zero A dot b hp _ ih
  apply h5 n hn1 (by omega)
  have := hz' (n - Module.finrank K V)
  rw [Nat.add_sub_cancel' hn] at this
  rw [this]
  exact hthr

include hs hp hAs hAp in
/-- C76, exactness: with a threshold that no residual undercuts (zero), the result after at least `d` iterations solves the system. -/
theorem C76_solves [Module.Finite K V] (n : Nat) (hn : Module.finrank K V ≤ n) :
    A (conjugateGradients A (fun x y => dot x y) b 0 n 0).1 = b := by
  have hnn : ∀ x, 0 ≤ dot x x := by
    intro x
    by_cases hx : x = 0
    · rw [hx]; simp
    · exact (hp x hx).le
  obtain ⟨h1, h2, h3⟩ := cgLoop_inv A (fun x y => dot x y) b 0 0 n ⟨0, b, b, dot b b⟩ (by simp) rfl
  obtain ⟨m, e1, _, e3⟩ := loop_seq A dot b 0 n 0
  change (cgLoop A (fun x y => dot x y) 0 0 n ⟨0, b, b, dot b b⟩).1 = _ at e1
  have hf : (cgLoop A (fun x y => dot x y) 0 0 n ⟨0, b, b, dot b b⟩).2 = false := by
    by_contra hc
    rw [Bool.not_eq_false] at hc
    have := h3 hc
    rw [h2] at this
    exact absurd this (not_lt.mpr (hnn _))
  obtain ⟨rfl, _⟩ := e3 hf
  have hz := finite A dot b hs hp hAs hAp
  have hz' : ∀ j, (seq A dot b (Module.finrank K V + j)).rr = 0 := by
    intro j
    induction j with
    | zero => exact hz
    | succ j ih => exact next_zero A dot b hp _ ih
  have hr := hz' (m - Module.finrank K V)
  rw [Nat.add_sub_cancel' hn] at hr
  have hr0 := r_zero A dot b hp m hr
  rw [e1, Nat.zero_add, hr0] at h1
  unfold conjugateGradients
  simp only
  rw [e1, Nat.zero_add]
  exact (sub_eq_zero.mp h1.symm).symm

end

/-- Two dimensions, two iterations: `[[2, 1], [1, 3]] x = (3, 5)`. -/
example : (conjugateGradients (fun v : Rat × Rat => (2 * v.1 + v.2, v.1 + 3 * v.2)) (fun x y => x.1 * y.1 + x.2 * y.2) (3, 5) 0 2 (1 / 1000))
    = ((4 / 5, 7 / 5), true) := by decide +kernel

end Machin.Trpo
