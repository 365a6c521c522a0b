import Mathlib.Analysis.SpecialFunctions.ExpDeriv
import Mathlib.Analysis.SpecialFunctions.Log.Deriv
import Mathlib.Analysis.Calculus.Deriv.Add
import Mathlib.Analysis.Calculus.Deriv.Mul
import Mathlib.Tactic.FieldSimp
import Mathlib.Tactic.Ring
import Verif.Algo.Losses

/-! # Lemmas on derivatives of the losses -/

namespace Machin.Algo

theorem hasDerivAt_of_eq {f g : ℝ → ℝ} {a b x : ℝ} (h : HasDerivAt f a x) (hf : ∀ θ, g θ = f θ) (hd : b = a) : HasDerivAt g b x := by
  rw [funext hf, hd]
  exact h

theorem hasDerivAt_listSum {ρ : Type} (rows : List ρ) (f : ρ → ℝ → ℝ) (f' : ρ → ℝ) (x : ℝ) (h : ∀ r ∈ rows, HasDerivAt (f r) (f' r) x) :
    HasDerivAt (fun θ => (rows.map fun r => f r θ).sum) ((rows.map f').sum) x := by
  induction rows with
  | nil => simpa using hasDerivAt_const x (0 : ℝ)
  | cons r rs ih =>
    simp only [List.map_cons, List.sum_cons]
    exact (h r (by simp)).add (ih fun q hq => h q (by simp [hq]))

theorem hasDerivAt_meanR {ρ : Type} (rows : List ρ) (f : ρ → ℝ → ℝ) (f' : ρ → ℝ) (x : ℝ) (h : ∀ r ∈ rows, HasDerivAt (f r) (f' r) x) :
    HasDerivAt (fun θ => meanR (rows.map fun r => f r θ)) (meanR (rows.map f')) x := by
  have := (hasDerivAt_listSum rows f f' x h).div_const (rows.length : ℝ)
  simpa [meanR] using this

theorem meanR_add_const (l : List ℝ) (c : ℝ) (hl : l ≠ []) : meanR (l.map (· + c)) = meanR l + c := by
  have h : (l.length : ℝ) ≠ 0 := by
    have : l.length ≠ 0 := fun hc => hl (List.length_eq_zero_iff.mp hc)
    exact_mod_cast this
  have hs : ∀ m : List ℝ, (m.map (· + c)).sum = m.sum + (m.length : ℝ) * c := by
    intro m
    induction m with
    | nil => simp
    | cons x xs ih =>
      simp only [List.map_cons, List.sum_cons, ih, List.length_cons, Nat.cast_add, Nat.cast_one]
      ring
  simp only [meanR, hs, List.length_map]
  field_simp

/-- Near the old policy the clipped objective is the unclipped one, and its slope is that of the logarithm. -/
theorem hasDerivAt_surrogate_old (clip adv : ℝ) (hc : 0 < clip) (f : ℝ → ℝ) (f' x : ℝ) (h : HasDerivAt f f' x) :
    HasDerivAt (fun θ => surrogate clip (f θ) (f x) adv) (f' * adv) x := by
  have hd : HasDerivAt (fun θ => Real.exp (f θ - f x)) f' x := by
    have := (h.sub_const (f x)).exp
    simpa using this
  have hcont : ContinuousAt (fun θ => Real.exp (f θ - f x)) x := hd.continuousAt
  have hin : ∀ᶠ θ in nhds x, Real.exp (f θ - f x) ∈ Set.Ioo (1 - clip) (1 + clip) := by
    apply hcont
    simp only [sub_self, Real.exp_zero]
    exact Ioo_mem_nhds (by linarith) (by linarith)
  refine (hd.mul_const adv).congr_of_eventuallyEq ?_
  filter_upwards [hin] with θ hθ
  simp only [surrogate, clampR]
  rw [max_eq_right hθ.1.le, min_eq_right hθ.2.le, min_self]

theorem hasDerivAt_ratio (f : ℝ → ℝ) (f' x old : ℝ) (h : HasDerivAt f f' x) :
    HasDerivAt (fun θ => Real.exp (f θ - old)) (Real.exp (f x - old) * f') x := (h.sub_const old).exp

end Machin.Algo
