import Verif.Noise.Model
import Mathlib.Algebra.BigOperators.Group.Finset.Basic
import Mathlib.Algebra.BigOperators.Ring.Finset
import Mathlib.Algebra.BigOperators.Intervals
import Mathlib.Algebra.BigOperators.Pi
import Mathlib.Algebra.Order.Field.Basic
import Mathlib.Algebra.Order.AbsoluteValue.Basic
import Mathlib.Algebra.Module.LinearMap.Defs
import Mathlib.Algebra.Module.Pi
import Mathlib.Tactic.Ring
import Mathlib.Tactic.Linarith
import Mathlib.Tactic.FieldSimp

/-! # Property C194: the process of the Ornstein-Uhlenbeck generator -/

namespace Machin.Noise

variable {K : Type} [Field K]

/-- The factor by which the distance from the mean shrinks in every step. -/
def Ou.decay (g : Ou K) : K := 1 - g.theta * g.dt

/-- Value `n` of the process started in `x`: the mean, what is left of the start, and the draws with fading weights. -/
def ouValue (g : Ou K) (x : K) (zs : Nat → K) (n : Nat) : K :=
  g.mu + g.decay ^ (n + 1) * (x - g.mu) + g.sigma * g.sqrtDt * ∑ k ∈ Finset.range (n + 1), g.decay ^ (n - k) * zs k

theorem calls_value (g : Ou K) (zs : List K) (n : Nat) (h : n < zs.length) :
    (g.calls zs).2[n]? = some (ouValue g g.xPrev (fun k => (zs[k]?).getD 0) n) := by
  induction zs generalizing g n with
  | nil => simp at h
  | cons z zs ih =>
    have hc : (g.calls (z :: zs)).2 = (g.call z).2 :: ((g.call z).1.calls zs).2 := rfl
    rw [hc]
    cases n with
    | zero =>
      simp only [List.getElem?_cons_zero, Ou.call, ouValue, Ou.decay, Finset.sum_range_succ, Finset.sum_range_zero, Option.getD_some]
      congr 1
      ring
    | succ n =>
      rw [List.getElem?_cons_succ, ih _ n (by simpa using h)]
      congr 1
      have hd : (g.call z).1.decay = g.decay := rfl
      simp only [ouValue, hd]
      rw [Finset.sum_range_succ' _ (n + 1)]
      have : ∀ k ∈ Finset.range (n + 1), g.decay ^ (n + 1 - (k + 1)) * ((z :: zs)[k + 1]?).getD 0 = g.decay ^ (n - k) * (zs[k]?).getD 0 := by
        intro k _
        rw [List.getElem?_cons_succ, show n + 1 - (k + 1) = n - k by omega]
      rw [Finset.sum_congr rfl this]
      simp only [Ou.call, List.getElem?_cons_zero, Option.getD_some, Nat.sub_zero, Ou.decay]
      ring

/-- C194. Value `n` of a generator that was reset is `mu + a^(n+1) (x0 - mu) + sigma sqrt(dt) Σ a^(n-k) z_k` with `a = 1 - theta dt`. -/
theorem C194_closed (g : Ou K) (zs : List K) (n : Nat) (h : n < zs.length) :
    (g.reset.calls zs).2[n]? = some (g.mu + (1 - g.theta * g.dt) ^ (n + 1) * (g.x0.getD 0 - g.mu) +
      g.sigma * g.sqrtDt * ∑ k ∈ Finset.range (n + 1), (1 - g.theta * g.dt) ^ (n - k) * (zs[k]?).getD 0) :=
  calls_value g.reset zs n h

/-- C194. The start is forgotten: with the same draws, values from two starts differ by the difference of the starts times `a^(n+1)`. -/
theorem C194_forgets (g : Ou K) (x y : K) (zs : List K) (n : Nat) (h : n < zs.length) :
    ∃ u v, (({ g with x0 := some x } : Ou K).reset.calls zs).2[n]? = some u ∧ (({ g with x0 := some y } : Ou K).reset.calls zs).2[n]? = some v ∧
      u - v = (1 - g.theta * g.dt) ^ (n + 1) * (x - y) := by
  refine ⟨_, _, C194_closed _ zs n h, C194_closed _ zs n h, ?_⟩
  simp only [Option.getD_some]
  ring

/-- C194. Bounded draws give bounded values around the mean, when `0 < theta dt <= 1`. -/
theorem C194_bounded [LinearOrder K] [IsStrictOrderedRing K] (g : Ou K) (h0 : 0 < g.theta * g.dt) (h1 : g.theta * g.dt ≤ 1) (z : K) (zs : List K)
    (hz : ∀ x ∈ zs, |x| ≤ z) (n : Nat) (h : n < zs.length) :
    ∃ x, (g.reset.calls zs).2[n]? = some x ∧
      |x - g.mu| ≤ (1 - g.theta * g.dt) ^ (n + 1) * |g.x0.getD 0 - g.mu| +
        (1 - (1 - g.theta * g.dt) ^ (n + 1)) * (|g.sigma * g.sqrtDt| * z / (g.theta * g.dt)) := by
  have key : ∀ (zs : List K) (g' : Ou K) (n : Nat), g'.theta = g.theta → g'.dt = g.dt → g'.sigma = g.sigma → g'.sqrtDt = g.sqrtDt → g'.mu = g.mu →
      (∀ x ∈ zs, |x| ≤ z) → n < zs.length → ∃ x, (g'.calls zs).2[n]? = some x ∧
      |x - g.mu| ≤ (1 - g.theta * g.dt) ^ (n + 1) * |g'.xPrev - g.mu| +
        (1 - (1 - g.theta * g.dt) ^ (n + 1)) * (|g.sigma * g.sqrtDt| * z / (g.theta * g.dt)) := by
    intro zs
    induction zs with
    | nil => intro g' n _ _ _ _ _ _ hn; simp at hn
    | cons w ws ih =>
      intro g' n e1 e2 e3 e4 e5 hz hn
      have hc : (g'.calls (w :: ws)).2 = (g'.call w).2 :: ((g'.call w).1.calls ws).2 := rfl
      have hnn : 0 ≤ 1 - g.theta * g.dt := by linarith
      have hval : (g'.call w).2 - g.mu = (1 - g.theta * g.dt) * (g'.xPrev - g.mu) + g.sigma * g.sqrtDt * w := by
        simp only [Ou.call, e1, e2, e3, e4, e5]
        ring
      have hone : |(g'.call w).2 - g.mu| ≤ (1 - g.theta * g.dt) * |g'.xPrev - g.mu| + |g.sigma * g.sqrtDt| * z := by
        rw [hval]
        refine (abs_add_le _ _).trans ?_
        rw [abs_mul, abs_of_nonneg hnn, abs_mul (g.sigma * g.sqrtDt) w]
        have := mul_le_mul_of_nonneg_left (hz w (by simp)) (abs_nonneg (g.sigma * g.sqrtDt))
        linarith
      rw [hc]
      cases n with
      | zero =>
        refine ⟨_, rfl, hone.trans ?_⟩
        rw [pow_one, show (1 - (1 - g.theta * g.dt)) * (|g.sigma * g.sqrtDt| * z / (g.theta * g.dt)) = |g.sigma * g.sqrtDt| * z by
          have := ne_of_gt h0
          rw [sub_sub_cancel, mul_div_assoc', mul_comm, mul_div_assoc, div_self this, mul_one]]
      | succ n =>
        obtain ⟨x, hx, hb⟩ := ih (g'.call w).1 n e1 e2 e3 e4 e5 (fun x hx => hz x (by simp [hx])) (by simpa using hn)
        refine ⟨x, by rw [List.getElem?_cons_succ]; exact hx, hb.trans ?_⟩
        have hp : (g'.call w).1.xPrev = (g'.call w).2 := rfl
        rw [hp]
        have hpow : 0 ≤ (1 - g.theta * g.dt) ^ (n + 1) := pow_nonneg hnn _
        have := mul_le_mul_of_nonneg_left hone hpow
        calc (1 - g.theta * g.dt) ^ (n + 1) * |(g'.call w).2 - g.mu| + (1 - (1 - g.theta * g.dt) ^ (n + 1)) * (|g.sigma * g.sqrtDt| * z / (g.theta * g.dt))
            ≤ (1 - g.theta * g.dt) ^ (n + 1) * ((1 - g.theta * g.dt) * |g'.xPrev - g.mu| + |g.sigma * g.sqrtDt| * z) +
              (1 - (1 - g.theta * g.dt) ^ (n + 1)) * (|g.sigma * g.sqrtDt| * z / (g.theta * g.dt)) := by linarith
          _ = _ := by
            have hne := ne_of_gt h0
            have e : |g.sigma * g.sqrtDt| * z = g.theta * g.dt * (|g.sigma * g.sqrtDt| * z / (g.theta * g.dt)) := by
              rw [mul_div_assoc', mul_comm (g.theta * g.dt), mul_div_assoc, div_self hne, mul_one]
            generalize |g.sigma * g.sqrtDt| * z / (g.theta * g.dt) = c at e
            rw [e, pow_succ (1 - g.theta * g.dt) (n + 1)]
            ring
  exact key zs g.reset n rfl rfl rfl rfl rfl hz h

/-- C194. Mean and variance: let `E` be an expectation (linear, 1 on constants 1) for which the draws have mean 0, variance 1 and no correlation. Then value `n`
has the mean `mu + a^(n+1) (x0 - mu)` and the variance `sigma² dt Σ_(k<=n) a^(2k)`; times `1 - a²` this is `sigma² dt (1 - a^(2n+2))`. -/
theorem C194_moments {Ω : Type} (E : (Ω → K) →ₗ[K] K) (hone : E (fun _ => 1) = 1) (z : Nat → Ω → K) (N : Nat)
    (hmean : ∀ k, k < N → E (z k) = 0) (hcov : ∀ j k, j < N → k < N → E (fun w => z j w * z k w) = if j = k then 1 else 0) (g : Ou K)
    (hsq : g.sqrtDt * g.sqrtDt = g.dt) (n : Nat) (h : n < N) :
    ∃ X : Ω → K, (∀ w, (g.reset.calls ((List.range N).map fun k => z k w)).2[n]? = some (X w)) ∧
      E X = g.mu + (1 - g.theta * g.dt) ^ (n + 1) * (g.x0.getD 0 - g.mu) ∧
      E (fun w => (X w - E X) * (X w - E X)) = g.sigma * g.sigma * g.dt * ∑ k ∈ Finset.range (n + 1), (1 - g.theta * g.dt) ^ (2 * k) ∧
      (1 - (1 - g.theta * g.dt) ^ 2) * E (fun w => (X w - E X) * (X w - E X)) =
        g.sigma * g.sigma * g.dt * (1 - (1 - g.theta * g.dt) ^ (2 * (n + 1))) := by
  set a := 1 - g.theta * g.dt with ha
  set m := g.mu + a ^ (n + 1) * (g.x0.getD 0 - g.mu) with hm
  have hX : ∀ w, (g.reset.calls ((List.range N).map fun k => z k w)).2[n]? =
      some (m + g.sigma * g.sqrtDt * ∑ k ∈ Finset.range (n + 1), a ^ (n - k) * z k w) := by
    intro w
    rw [C194_closed g _ n (by simpa using h)]
    congr 3
    apply Finset.sum_congr rfl
    intro k hk
    rw [Finset.mem_range] at hk
    simp [List.getElem?_map, show k < N by omega, ha]
  have hconst : ∀ c : K, E (fun _ => c) = c := by
    intro c
    have : (fun _ : Ω => c) = c • (fun _ : Ω => (1 : K)) := by funext w; simp
    rw [this, map_smul, hone, smul_eq_mul, mul_one]
  have hmeanX : E (fun w => m + g.sigma * g.sqrtDt * ∑ k ∈ Finset.range (n + 1), a ^ (n - k) * z k w) = m := by
    have : (fun w => m + g.sigma * g.sqrtDt * ∑ k ∈ Finset.range (n + 1), a ^ (n - k) * z k w) =
        (fun _ => m) + (g.sigma * g.sqrtDt) • ∑ k ∈ Finset.range (n + 1), a ^ (n - k) • z k := by
      funext w
      simp [Finset.sum_apply]
    rw [this, map_add, map_smul, map_sum, hconst]
    have : ∀ k ∈ Finset.range (n + 1), E (a ^ (n - k) • z k) = 0 := by
      intro k hk
      rw [Finset.mem_range] at hk
      rw [map_smul, hmean k (by omega), smul_zero]
    rw [Finset.sum_congr rfl this]
    simp
  have hvar : E (fun w => (g.sigma * g.sqrtDt * ∑ k ∈ Finset.range (n + 1), a ^ (n - k) * z k w) *
      (g.sigma * g.sqrtDt * ∑ k ∈ Finset.range (n + 1), a ^ (n - k) * z k w)) =
      g.sigma * g.sigma * g.dt * ∑ k ∈ Finset.range (n + 1), a ^ (2 * k) := by
    have e1 : (fun w => (g.sigma * g.sqrtDt * ∑ k ∈ Finset.range (n + 1), a ^ (n - k) * z k w) *
        (g.sigma * g.sqrtDt * ∑ k ∈ Finset.range (n + 1), a ^ (n - k) * z k w)) =
        (g.sigma * g.sigma * g.dt) • ∑ j ∈ Finset.range (n + 1), ∑ k ∈ Finset.range (n + 1),
          (a ^ (n - j) * a ^ (n - k)) • (fun w => z j w * z k w) := by
      funext w
      simp only [Pi.smul_apply, Finset.sum_apply, smul_eq_mul]
      rw [← hsq]
      have : ∑ j ∈ Finset.range (n + 1), ∑ k ∈ Finset.range (n + 1), a ^ (n - j) * a ^ (n - k) * (z j w * z k w) =
          (∑ j ∈ Finset.range (n + 1), a ^ (n - j) * z j w) * ∑ k ∈ Finset.range (n + 1), a ^ (n - k) * z k w := by
        rw [Finset.sum_mul_sum]
        apply Finset.sum_congr rfl; intro j _
        apply Finset.sum_congr rfl; intro k _
        ring
      rw [this]
      ring
    rw [e1, map_smul, map_sum, smul_eq_mul]
    congr 1
    have e2 : ∀ j ∈ Finset.range (n + 1), E (∑ k ∈ Finset.range (n + 1), (a ^ (n - j) * a ^ (n - k)) • (fun w => z j w * z k w)) = a ^ (2 * (n - j)) := by
      intro j hj
      rw [map_sum]
      rw [Finset.mem_range] at hj
      have : ∀ k ∈ Finset.range (n + 1), E ((a ^ (n - j) * a ^ (n - k)) • (fun w => z j w * z k w)) = if j = k then a ^ (2 * (n - j)) else 0 := by
        intro k hk
        rw [Finset.mem_range] at hk
        rw [map_smul, hcov j k (by omega) (by omega)]
        split
        · rename_i e; subst e; rw [smul_eq_mul, mul_one, two_mul, pow_add]
        · simp
      rw [Finset.sum_congr rfl this, Finset.sum_ite_eq, if_pos (Finset.mem_range.2 hj)]
    rw [Finset.sum_congr rfl e2, ← Finset.sum_range_reflect]
    apply Finset.sum_congr rfl
    intro k hk
    rw [Finset.mem_range] at hk
    rw [show n - (n + 1 - 1 - k) = k by omega]
  refine ⟨_, hX, hmeanX, ?_, ?_⟩
  · rw [hmeanX]
    simp only [add_sub_cancel_left]
    exact hvar
  · rw [hmeanX]
    simp only [add_sub_cancel_left]
    rw [hvar]
    have hgeo : ∀ m : Nat, (1 - a ^ 2) * ∑ k ∈ Finset.range m, a ^ (2 * k) = 1 - a ^ (2 * m) := by
      intro m
      induction m with
      | zero => simp
      | succ m ih => rw [Finset.sum_range_succ, mul_add, ih, show 2 * (m + 1) = 2 * m + 2 by ring, pow_add]; ring
    rw [← hgeo]
    ring

/-- Non-vacuity: two independent fair signs. -/
example : ∃ (E : (Bool × Bool → ℚ) →ₗ[ℚ] ℚ) (z : Nat → Bool × Bool → ℚ), E (fun _ => 1) = 1 ∧ (∀ k, k < 2 → E (z k) = 0) ∧
    ∀ j k, j < 2 → k < 2 → E (fun w => z j w * z k w) = if j = k then 1 else 0 := by
  refine ⟨{ toFun := fun f => (f (true, true) + f (true, false) + f (false, true) + f (false, false)) / 4
            map_add' := fun f g => by simp only [Pi.add_apply]; ring
            map_smul' := fun c f => by simp only [Pi.smul_apply, smul_eq_mul, RingHom.id_apply]; ring },
    fun k w => if k = 0 then (if w.1 then 1 else -1) else (if w.2 then 1 else -1), ?_, ?_, ?_⟩
  · show ((1 : ℚ) + 1 + 1 + 1) / 4 = 1
    norm_num
  · intro k hk
    have : k = 0 ∨ k = 1 := by omega
    rcases this with rfl | rfl <;> simp <;> norm_num
  · intro j k hj hk
    have h1 : j = 0 ∨ j = 1 := by omega
    have h2 : k = 0 ∨ k = 1 := by omega
    rcases h1 with rfl | rfl <;> rcases h2 with rfl | rfl <;> simp <;> norm_num

example : ((⟨1, 1, 1 / 2, 1, 1, some 4, 9⟩ : Ou ℚ).reset.calls [0, 1]).2 = [5 / 2, 11 / 4] := by decide +kernel

end Machin.Noise
