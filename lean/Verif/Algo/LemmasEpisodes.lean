import Verif.Returns.PropsEpisodes
import Verif.Algo.PropsGradient

/-! # Helper lemmas on the gradient of the value of episodes -/

namespace Machin.Algo

open Returns Returns.Spec Real

section

variable {R S A Ω : Type} [CommRing R] [Fintype A] [Fintype Ω]

/-- Unfolding the average of a weighted sum whose numbers depend on state and action only. -/
theorem avg_weighted_map (e : Env R S A Ω) (pi : S → A → R) (hf : Fair e pi) (B : S → A → R) (n : Nat) (s : S) (w : List (A × Tr R S) → S → A → R) :
    avg e pi (n + 1) s (fun ep => weighted w ep (ep.map fun x => B x.2.state x.1)) =
      ∑ a, pi s a * (w [] s a * B s a + ∑ o, e.prob s a o * if e.term s a o then 0 else
        avg e pi n (e.next s a o) (fun l => weighted (fun h => w ((a, e.tr s a o) :: h)) l (l.map fun x => B x.2.state x.1))) := by
  rw [avg]
  refine Finset.sum_congr rfl fun a _ => congrArg (pi s a * ·) ?_
  have h2 : ∀ o, (if e.term s a o = true then weighted w [(a, e.tr s a o)] ([(a, e.tr s a o)].map fun x => B x.2.state x.1)
        else avg e pi n (e.next s a o) fun l => weighted w ((a, e.tr s a o) :: l) (((a, e.tr s a o) :: l).map fun x => B x.2.state x.1)) =
      w [] s a * B s a +
      (if e.term s a o = true then 0
        else avg e pi n (e.next s a o) fun l => weighted (fun p => w ((a, e.tr s a o) :: p)) l (l.map fun x => B x.2.state x.1)) := by
    intro o
    by_cases ht : e.term s a o = true
    · rw [if_pos ht, if_pos ht]
      simp [weighted, Env.tr]
    · rw [if_neg ht, if_neg ht]
      have : w [] s a * B s a = avg e pi n (e.next s a o) (fun _ => w [] s a * B s a) := (avg_const e pi hf _ _ _).symm
      rw [this, ← avg_add]
      rfl
  refine (Finset.sum_congr rfl fun o _ => congrArg (e.prob s a o * ·) (h2 o)).trans ?_
  simp only [mul_add, Finset.sum_add_distrib]
  rw [← Finset.sum_mul, hf.outcomes, one_mul]

/-- Numbers that vanish on average over the actions of every state vanish on average over episodes. -/
theorem avg_weighted_zero (e : Env R S A Ω) (pi : S → A → R) (hf : Fair e pi) (B : S → A → R) (n : Nat) (s : S) (w : List (A × Tr R S) → S → A → R)
    (h : ∀ p s, ∑ a, pi s a * (w p s a * B s a) = 0) : avg e pi n s (fun ep => weighted w ep (ep.map fun x => B x.2.state x.1)) = 0 := by
  induction n generalizing s w with
  | zero => rfl
  | succ n ih =>
    rw [avg_weighted_map e pi hf]
    simp only [mul_add, Finset.sum_add_distrib]
    rw [h [] s, zero_add]
    refine Finset.sum_eq_zero fun a _ => ?_
    rw [Finset.sum_eq_zero fun o _ => ?_, mul_zero]
    rw [ih _ _ fun p s => h _ s]
    simp

omit [Fintype A] [Fintype Ω] in
theorem weighted_scale (c : R) (w : List (A × Tr R S) → S → A → R) (ep : List (A × Tr R S)) (vs : List R) :
    weighted (fun h s a => c * w h s a) ep vs = c * weighted w ep vs := by
  induction ep generalizing w vs with
  | nil => cases vs <;> simp [weighted]
  | cons x ep ih =>
    cases vs with
    | nil => simp [weighted]
    | cons v vs =>
      simp only [weighted]
      rw [ih (fun h => w (x :: h))]
      ring

omit [Fintype A] [Fintype Ω] in
theorem weighted_sub (w : List (A × Tr R S) → S → A → R) (ep : List (A × Tr R S)) (Q b : A × Tr R S → R) :
    weighted w ep (ep.map fun x => Q x - b x) = weighted w ep (ep.map Q) + -1 * weighted w ep (ep.map b) := by
  induction ep generalizing w with
  | nil => simp [weighted]
  | cons x ep ih =>
    simp only [List.map_cons, weighted]
    rw [ih (fun h => w (x :: h))]
    ring

/-- The average return is the value of the state. -/
theorem avg_return (e : Env R S A Ω) (pi : S → A → R) (rank : S → Nat) (hr : Ending e rank) (hf : Fair e pi) (g : R) (Q : S → A → R) (V : S → R)
    (hx : Exact e pi g Q V) (n : Nat) (s : S) (hn : rank s < n) :
    avg e pi n s (fun ep => discounted g ep.length (rewardAt (ep.map (·.2.reward)))) = V s := by
  have h1 : ∀ ep : List (A × Tr R S), discounted g ep.length (rewardAt (ep.map (·.2.reward))) = first (values g (ep.map (·.2.reward))) := by
    intro ep
    cases ep with
    | nil => simp [discounted, values, first]
    | cons x ep =>
      have := values_get g ((x :: ep).map (·.2.reward)) 0 (by simp)
      unfold first
      rw [List.head?_eq_getElem?, this]
      simp [horner_eq]
  simp only [h1]
  cases n with
  | zero => omega
  | succ n =>
    rw [avg_succ, hx.state]
    exact Finset.sum_congr rfl fun a _ => congrArg (pi s a * ·) (stepAvg_values e pi rank hr hf g Q V hx n s a hn)

/-- Exact values are the values of a long enough horizon. -/
theorem horizon_exact (e : Env R S A Ω) (pi : S → A → R) (rank : S → Nat) (hr : Ending e rank) (g : R) (Q : S → A → R) (V : S → R)
    (hx : Exact e pi g Q V) (n : Nat) (s : S) (hn : rank s < n) : horizon e pi g n s = V s := by
  induction n generalizing s with
  | zero => omega
  | succ n ih =>
    rw [horizon, hx.state]
    refine Finset.sum_congr rfl fun a _ => congrArg (pi s a * ·) ?_
    rw [hx.action]
    refine Finset.sum_congr rfl fun o _ => ?_
    by_cases ht : e.term s a o = true
    · rw [if_pos ht, if_pos ht]
    · have := hr s a o (by simpa using ht)
      rw [if_neg ht, if_neg ht, ih _ (by omega)]

end

variable {S A Ω : Type} [Fintype A] [Fintype Ω]

/-- The probabilities of the actions at the parameters `θ`. -/
def probs {x : ℝ} (π : S → Policy A x) (θ : ℝ) (s : S) (a : A) : ℝ := (π s).prob a θ

/-- The slope of the log probability at `x`. -/
noncomputable def score {x : ℝ} (π : S → Policy A x) (s : S) (a : A) : ℝ := (π s).slope a / (π s).prob a x

theorem probs_score {x : ℝ} (π : S → Policy A x) (s : S) (a : A) : probs π x s a * score π s a = (π s).slope a := by
  have := ((π s).positive a).ne'
  unfold probs score
  field_simp

theorem fair_probs {x : ℝ} (e : Env ℝ S A Ω) (ho : ∀ s a, ∑ o, e.prob s a o = 1) (π : S → Policy A x) (θ : ℝ) : Fair e (probs π θ) :=
  ⟨ho, fun s => (π s).total θ⟩

/-- The gradient of the value of a state: the sum over the steps of slope times value, discounted like the rewards. -/
theorem hasDerivAt_horizon {x : ℝ} (e : Env ℝ S A Ω) (rank : S → Nat) (hr : Ending e rank) (ho : ∀ s a, ∑ o, e.prob s a o = 1) (π : S → Policy A x)
    (g : ℝ) (Q : S → A → ℝ) (V : S → ℝ) (hx : Exact e (probs π x) g Q V) (n : Nat) (s : S) (hn : rank s < n) :
    HasDerivAt (fun θ => horizon e (probs π θ) g n s)
      (avg e (probs π x) n s fun ep => weighted (fun h s a => g ^ h.length * score π s a) ep (ep.map fun y => Q y.2.state y.1)) x := by
  induction n generalizing s with
  | zero => omega
  | succ n ih =>
    have hD : ∀ a o, HasDerivAt (fun θ => e.prob s a o * (e.reward s a o + g * if e.term s a o then 0 else horizon e (probs π θ) g n (e.next s a o)))
        (e.prob s a o * (g * if e.term s a o then 0 else avg e (probs π x) n (e.next s a o)
          fun ep => weighted (fun h s a => g ^ h.length * score π s a) ep (ep.map fun y => Q y.2.state y.1))) x := by
      intro a o
      by_cases ht : e.term s a o = true
      · simp only [ht, if_true, mul_zero]
        exact hasDerivAt_const _ _
      · simp only [ht]
        have := hr s a o (by simpa using ht)
        exact (((ih (e.next s a o) (by omega)).const_mul g).const_add (e.reward s a o)).const_mul (e.prob s a o)
    have hq : ∀ a, HasDerivAt (fun θ => ∑ o, e.prob s a o * (e.reward s a o + g * if e.term s a o then 0 else horizon e (probs π θ) g n (e.next s a o)))
        (∑ o, e.prob s a o * (g * if e.term s a o then 0 else avg e (probs π x) n (e.next s a o)
          fun ep => weighted (fun h s a => g ^ h.length * score π s a) ep (ep.map fun y => Q y.2.state y.1))) x := by
      intro a
      have := HasDerivAt.sum (u := Finset.univ)
        (A := fun o θ => e.prob s a o * (e.reward s a o + g * if e.term s a o then 0 else horizon e (probs π θ) g n (e.next s a o))) (x := x) fun o _ => hD a o
      exact hasDerivAt_of_eq this (fun θ => by simp) rfl
    have hv : ∀ a, (∑ o, e.prob s a o * (e.reward s a o + g * if e.term s a o then 0 else horizon e (probs π x) g n (e.next s a o))) = Q s a := by
      intro a
      rw [hx.action]
      refine Finset.sum_congr rfl fun o _ => ?_
      by_cases ht : e.term s a o = true
      · rw [if_pos ht, if_pos ht]
      · have := hr s a o (by simpa using ht)
        rw [if_neg ht, if_neg ht, horizon_exact e _ rank hr g Q V hx n _ (by omega)]
    have hs := HasDerivAt.sum (u := Finset.univ) (A := fun a θ => probs π θ s a *
      ∑ o, e.prob s a o * (e.reward s a o + g * if e.term s a o then 0 else horizon e (probs π θ) g n (e.next s a o))) (x := x)
      fun a _ => ((π s).smooth a).mul (hq a)
    refine hasDerivAt_of_eq hs (fun θ => by simp [horizon]) ?_
    rw [avg_weighted_map e _ (fair_probs e ho π x)]
    refine Finset.sum_congr rfl fun a _ => ?_
    rw [hv a, mul_add]
    congr 1
    · simp only [List.length_nil, pow_zero, one_mul]
      rw [← mul_assoc, probs_score]
    · refine congrArg (probs π x s a * ·) (Finset.sum_congr rfl fun o _ => congrArg (e.prob s a o * ·) ?_)
      by_cases ht : e.term s a o = true
      · simp [ht]
      · rw [if_neg ht, if_neg ht, ← avg_mul]
        refine avg_congr _ _ _ _ _ _ fun l _ => ?_
        rw [← weighted_scale]
        congr 1
        funext h s' a'
        simp only [List.length_cons, pow_succ]
        ring

end Machin.Algo
