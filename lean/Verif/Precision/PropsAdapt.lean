import Verif.Precision.AdaptLemmas
import Verif.Precision.PropsEpsilon

/-!
# C255: the adaptive noise deviation in floating point

`machin/frame/noise/param_space_noise.py:48-61`. A distance above the desired one should make the deviation smaller, any other one larger. In binary64 this holds while the numbers are not
tiny (`C255_shrink_partial`, `C255_grow_partial`), and after any history of distances the deviation is the exact one up to a small relative error (`C255_error_partial`). After enough
distances above the desired one it stops falling (`C255_violated_shrink`), and for some coefficients it can then never rise again, whatever distances follow (`C255_dead`,
`C255_violated_dead`); for the default 1.01 it can (`C255_default`).
-/

namespace Machin.Precision

open Machin.Prio Machin.Algo Machin.Noise

/-- Full statement, after every history of distances. -/
def C255_full : Prop :=
  ∀ (a : Adaptive ℚ) (ds : List ℚ) (d : ℚ), IsFloat a.current → IsFloat a.coeff → 0 < a.current → 1 < a.coeff →
    let b := adaptsF ieee a ds
    (a.desired < d → (adaptF ieee b d).current < b.current) ∧ (d ≤ a.desired → b.current < (adaptF ieee b d).current)

/-- In every history the deviation stays a float, and is never negative. -/
theorem C255_float (a : Adaptive ℚ) (ds : List ℚ) (ka : IsFloat a.current) (h0 : 0 ≤ a.current) (hc : 1 < a.coeff) :
    IsFloat (adaptsF ieee a ds).current ∧ 0 ≤ (adaptsF ieee a ds).current := by
  unfold adaptsF
  induction ds generalizing a with
  | nil => exact ⟨ka, h0⟩
  | cons d ds ih =>
    have hc0 : 0 < a.coeff := by linarith
    rw [List.foldl_cons]
    refine ih _ ?_ ?_ ?_
    · unfold adaptF
      split
      · exact gradual_idem (p := 53) (m := 1074) (by norm_num) (div_nonneg h0 hc0.le)
      · exact gradual_idem (p := 53) (m := 1074) (by norm_num) (mul_nonneg h0 hc0.le)
    · unfold adaptF
      split
      · exact gradual_nonneg (p := 53) (m := 1074) (by norm_num) (div_nonneg h0 hc0.le)
      · exact gradual_nonneg (p := 53) (m := 1074) (by norm_num) (mul_nonneg h0 hc0.le)
    · unfold adaptF
      split <;> exact hc

/-- A distance above the desired one makes the deviation smaller while the quotient is at least `2 ^ -1022`, and never larger. -/
theorem C255_shrink_partial (a : Adaptive ℚ) (d : ℚ) (ka : IsFloat a.current) (kc : IsFloat a.coeff) (h0 : 0 ≤ a.current) (hc : 1 < a.coeff) (hd : a.desired < d) :
    (adaptF ieee a d).current ≤ a.current ∧ (1 / 2 ^ 1022 ≤ a.current / a.coeff → (adaptF ieee a d).current < a.current) := by
  unfold adaptF
  rw [if_pos hd]
  constructor
  · have hc0 : 0 < a.coeff := by linarith
    show gradual 53 1074 (a.current / a.coeff) ≤ a.current
    rw [div_eq_mul_one_div]
    refine step_le (by norm_num) ka h0 (by positivity) ?_
    rw [div_le_one hc0]; exact hc.le
  · intro hn
    refine shrink_normal (p := 53) (m := 1074) (by norm_num) (by norm_num) ka kc hc ?_
    rw [ieee_limits.1, zpow_neg, ← one_div]
    exact_mod_cast hn

/-- Any other distance makes it larger while it is at least `2 ^ -1022`, and never smaller. -/
theorem C255_grow_partial (a : Adaptive ℚ) (d : ℚ) (ka : IsFloat a.current) (kc : IsFloat a.coeff) (h0 : 0 ≤ a.current) (hc : 1 < a.coeff) (hd : d ≤ a.desired) :
    a.current ≤ (adaptF ieee a d).current ∧ (1 / 2 ^ 1022 ≤ a.current → a.current < (adaptF ieee a d).current) := by
  unfold adaptF
  rw [if_neg (not_lt.2 hd)]
  constructor
  · have h := gradual_mono (p := 53) (m := 1074) (by norm_num) h0 (le_mul_of_one_le_right h0 hc.le)
    have k : gradual 53 1074 a.current = a.current := ka
    rwa [k] at h
  · intro hn
    refine grow_normal (p := 53) (m := 1074) (by norm_num) (by norm_num) ka kc hc ?_
    rw [ieee_limits.1, zpow_neg, ← one_div]
    exact_mod_cast hn

/-- The initial state with the default numbers 0.1, 0.1 and 1.01 (param_space_noise.py:12-16). -/
def exAdaptive : Adaptive ℚ := ⟨ieee (1 / 10), ieee (1 / 10), ieee (101 / 100), ieee (1 / 10)⟩

example : IsFloat exAdaptive.current ∧ IsFloat exAdaptive.coeff ∧ 1 < exAdaptive.coeff ∧ 1 / 2 ^ 1022 ≤ exAdaptive.current / exAdaptive.coeff ∧
    (adaptF ieee exAdaptive 1).current < exAdaptive.current ∧ exAdaptive.current < (adaptF ieee exAdaptive 0).current := by
  unfold IsFloat; decide +kernel

/-- Shrinking and growing once may not give the old deviation back. -/
theorem C255_order : let c := ieee (101 / 100)
    IsFloat (9 / 64) ∧ ieee (ieee (9 / 64 / c) * c) ≠ 9 / 64 := by
  unfold IsFloat; decide +kernel

/-- With a coefficient below 2, from every positive deviation: after enough distances above the desired one the deviation is positive and further such distances do not change it. -/
theorem C255_violated_shrink (a : Adaptive ℚ) (d : ℚ) (ka : IsFloat a.current) (h0 : 0 < a.current) (hc : 1 < a.coeff) (hc2 : a.coeff < 2) (hd : a.desired < d) :
    ∃ N, ∀ n, N ≤ n → (adaptsF ieee a (List.replicate n d)).current = (adaptsF ieee a (List.replicate N d)).current ∧
      0 < (adaptsF ieee a (List.replicate n d)).current := by
  have hc0 : 0 < a.coeff := by linarith
  have key : ∀ n, (adaptsF ieee a (List.replicate n d)).current = epsF ieee (1 / a.coeff) a.current n := by
    intro n
    induction n with
    | zero => rfl
    | succ n ih =>
      have hk := adaptsF_const ieee a (List.replicate n d)
      rw [List.replicate_succ']
      unfold adaptsF at ih hk ⊢
      rw [List.foldl_append]
      simp only [List.foldl_cons, List.foldl_nil]
      rw [epsF, ← ih]
      generalize (List.replicate n d).foldl (adaptF ieee) a = b at hk ⊢
      unfold adaptF
      rw [hk.1, if_pos hd]
      show ieee (_ / _) = _
      rw [hk.2.1, div_eq_mul_one_div]
  have hh : 1 / 2 < 1 / a.coeff := one_div_lt_one_div_of_lt hc0 hc2
  have hl : 1 / a.coeff < 1 := by rw [div_lt_one hc0]; exact hc
  obtain ⟨hpos, N, hN⟩ := C253_violated_always (1 / a.coeff) a.current ka hh hl h0
  exact ⟨N, fun n hn => ⟨by rw [key, key, hN n hn], by rw [key]; exact hpos n⟩⟩

/-- A deviation so small that one coefficient more changes it by less than half of the smallest number stays for ever, whatever the distances are. -/
theorem C255_dead (a : Adaptive ℚ) (ka : IsFloat a.current) (h0 : 0 ≤ a.current) (hc : 1 < a.coeff) (hn : a.current * a.coeff < 1 / 2 ^ 1022)
    (h : a.current * (a.coeff - 1) < 1 / 2 ^ 1075) (ds : List ℚ) : adaptsF ieee a ds = a := by
  have hc0 : 0 < a.coeff := by linarith
  have hz : (2 : ℚ) ^ (-((1074 : Nat) : Int)) = 2 * (1 / 2 ^ 1075) := by
    rw [ieee_limits.2, zpow_neg, ← one_div, ← half_pow 1074]
    norm_cast
  have hz2 : (2 : ℚ) ^ (((53 : Nat) : Int) - 1 - (1074 : Nat)) = 1 / 2 ^ 1022 := by
    rw [ieee_limits.1, zpow_neg, ← one_div]
    norm_cast
  have hg := two_pos (-((1074 : Nat) : Int))
  have hgrow : ieee (a.current * a.coeff) = a.current := by
    show gradual 53 1074 (a.current * a.coeff) = a.current
    obtain ⟨k, hk⟩ := gradual_grid (p := 53) (m := 1074) (by norm_num) h0
    have ka' : gradual 53 1074 a.current = a.current := ka
    rw [ka'] at hk
    rw [gradual_small (mul_nonneg h0 hc0.le) (by rw [hz2]; exact hn)]
    have hdiv : a.current * a.coeff / 2 ^ (-((1074 : Nat) : Int)) = k * a.coeff := by rw [hk]; field_simp
    have hb := abs_le.1 (roundEven_bounds ((k : ℚ) * a.coeff)).2
    have h2 : 2 * ((k : ℚ) * (a.coeff - 1)) < 1 := by
      have h3 : 2 * (a.current * (a.coeff - 1)) < 2 ^ (-((1074 : Nat) : Int)) := by rw [hz]; linarith
      rw [hk] at h3
      have : (2 * ((k : ℚ) * (a.coeff - 1))) * 2 ^ (-((1074 : Nat) : Int)) < 1 * 2 ^ (-((1074 : Nat) : Int)) := by linarith
      exact lt_of_mul_lt_mul_right this hg.le
    have hk0 : (0 : ℚ) ≤ k * (a.coeff - 1) := mul_nonneg (Nat.cast_nonneg k) (by linarith)
    have h3 : roundEven ((k : ℚ) * a.coeff) = k := by
      have l1 : ((roundEven ((k : ℚ) * a.coeff) : Int) : ℚ) < ((k + 1 : Int) : ℚ) := by push_cast; linarith
      have l2 : ((k - 1 : Int) : ℚ) < ((roundEven ((k : ℚ) * a.coeff) : Int) : ℚ) := by push_cast; linarith
      have l1' := Int.cast_lt.1 l1
      have l2' := Int.cast_lt.1 l2
      omega
    rw [hdiv, h3]
    push_cast
    rw [mul_comm]
    exact hk.symm
  have hshrink : ieee (a.current / a.coeff) = a.current := by
    show gradual 53 1074 (a.current / a.coeff) = a.current
    have hi0 : (0 : ℚ) ≤ 1 / a.coeff := by positivity
    have hi1 : 1 / a.coeff ≤ 1 := by rw [div_le_one hc0]; exact hc.le
    rw [div_eq_mul_one_div]
    refine (step_stuck (p := 53) (m := 1074) (by norm_num) ka h0 hi0 ?_).1 ?_ hi1
    · rw [hz2]
      refine lt_of_le_of_lt ?_ hn
      exact mul_le_mul_of_nonneg_left (by linarith) h0
    · rw [hz]
      have e : 1 - 1 / a.coeff = (a.coeff - 1) * (1 / a.coeff) := by field_simp
      have : a.current * (1 - 1 / a.coeff) ≤ a.current * (a.coeff - 1) := by
        rw [e]
        refine mul_le_mul_of_nonneg_left ?_ h0
        exact mul_le_of_le_one_right (by linarith) hi1
      linarith
  unfold adaptsF
  induction ds with
  | nil => rfl
  | cons d ds ih =>
    have : adaptF ieee a d = a := by
      unfold adaptF
      split
      · rw [hshrink]
      · rw [hgrow]
    rw [List.foldl_cons, this]
    exact ih

/-- With the coefficient 1.015 the deviation 34 / 2 ^ 1074 falls to 33 / 2 ^ 1074 and stays there for ever. -/
theorem C255_violated_dead (desired : ℚ) (d : ℚ) (hd : desired < d) (ds : List ℚ) :
    let a : Adaptive ℚ := ⟨1 / 10, desired, ieee (1015 / 1000), 34 / 2 ^ 1074⟩
    IsFloat a.current ∧ (adaptsF ieee a (d :: ds)).current = 33 / 2 ^ 1074 := by
  intro a
  have h1 : ieee (34 / 2 ^ 1074 / ieee (1015 / 1000)) = 33 / 2 ^ 1074 := by decide +kernel
  refine ⟨by show ieee (34 / 2 ^ 1074) = 34 / 2 ^ 1074; decide +kernel, ?_⟩
  have h2 : adaptF ieee a d = ⟨1 / 10, desired, ieee (1015 / 1000), 33 / 2 ^ 1074⟩ := by
    unfold adaptF
    rw [if_pos hd]
    show (⟨_, _, _, ieee (34 / 2 ^ 1074 / ieee (1015 / 1000))⟩ : Adaptive ℚ) = _
    rw [h1]
  have h3 := C255_dead ⟨1 / 10, desired, ieee (1015 / 1000), 33 / 2 ^ 1074⟩ (by show ieee (33 / 2 ^ 1074) = 33 / 2 ^ 1074; decide +kernel) (by show (0 : ℚ) ≤ 33 / 2 ^ 1074; decide +kernel)
    (by show 1 < ieee _; decide +kernel) (by show 33 / 2 ^ 1074 * ieee _ < _; decide +kernel) (by show 33 / 2 ^ 1074 * (ieee _ - 1) < _; decide +kernel) ds
  unfold adaptsF at h3 ⊢
  rw [List.foldl_cons, h2, h3]

/-- With the default coefficient the deviation stops falling at 50 / 2 ^ 1074, and can rise from there. -/
theorem C255_default : let c := ieee (101 / 100)
    ieee (50 / 2 ^ 1074 / c) = 50 / 2 ^ 1074 ∧ ieee (51 / 2 ^ 1074 / c) = 50 / 2 ^ 1074 ∧ ieee (50 / 2 ^ 1074 * c) = 51 / 2 ^ 1074 ∧ ieee (49 / 2 ^ 1074 * c) = 49 / 2 ^ 1074 := by
  decide +kernel

theorem C255_violated : ¬ C255_full := by
  intro h
  have h1 := (h ⟨1 / 10, 0, ieee (101 / 100), 50 / 2 ^ 1074⟩ [] 1 (by show ieee _ = _; decide +kernel) (by show ieee _ = _; decide +kernel)
    (by show (0 : ℚ) < 50 / 2 ^ 1074; decide +kernel) (by show 1 < ieee _; decide +kernel)).1 (by show (0 : ℚ) < 1; norm_num)
  revert h1
  decide +kernel

/-- The exact deviation after a history of distances, and the computed one: equal up to a relative error of `51 / 25 * n / 2 ^ 53`, while the exact one is at least `2 ^ -1021`. -/
theorem C255_error_partial (a : Adaptive ℚ) (ds : List ℚ) (h0 : 0 < a.current) (hc : 1 < a.coeff) (hn : ds.length ≤ 2 ^ 50)
    (hx : ∀ k, k ≤ ds.length → 1 / 2 ^ 1021 ≤ ((ds.take k).foldl Adaptive.adapt a).current) :
    |(adaptsF ieee a ds).current - (ds.foldl Adaptive.adapt a).current| ≤ 51 / 25 * ds.length / 2 ^ 53 * (ds.foldl Adaptive.adapt a).current := by
  have hc0 : 0 < a.coeff := by linarith
  obtain ⟨w, hw⟩ : ∃ w : ℚ, w = 51 / 50 * (1 / 2 ^ 53) := ⟨_, rfl⟩
  have hw0 : 0 ≤ w := by rw [hw]; norm_num
  have hsmall : ∀ k : Nat, k ≤ 2 ^ 50 → (1 + w) ^ k - 1 ≤ 2 * (k * w) ∧ 2 * (k * w) ≤ 1 / 2 := by
    intro k hk
    have hkq : (k : ℚ) ≤ 2 ^ 50 := by exact_mod_cast hk
    have h1 : (k : ℚ) * w ≤ 2 ^ 50 * w := mul_le_mul_of_nonneg_right hkq hw0
    have h2 : 2 ^ 50 * w ≤ 1 / 4 := by rw [hw]; norm_num
    exact ⟨pow_small hw0 k (by linarith), by linarith⟩
  have hconst : ∀ l : List ℚ, (l.foldl Adaptive.adapt a).desired = a.desired ∧ (l.foldl Adaptive.adapt a).coeff = a.coeff := by
    intro l
    induction l using List.reverseRecOn with
    | nil => exact ⟨rfl, rfl⟩
    | append_singleton l d ih =>
      rw [List.foldl_append]
      simp only [List.foldl_cons, List.foldl_nil]
      unfold Adaptive.adapt at ih ⊢
      split <;> exact ih
  have hpos : ∀ l : List ℚ, 0 < (l.foldl Adaptive.adapt a).current := by
    intro l
    induction l using List.reverseRecOn with
    | nil => exact h0
    | append_singleton l d ih =>
      have hk := hconst l
      rw [List.foldl_append]
      simp only [List.foldl_cons, List.foldl_nil]
      generalize l.foldl Adaptive.adapt a = b at ih hk
      have hb : 0 < b.coeff := by rw [hk.2]; exact hc0
      unfold Adaptive.adapt
      split
      · exact div_pos ih hb
      · exact mul_pos ih hb
  have key : ∀ l : List ℚ, l.length ≤ 2 ^ 50 → (∀ k, k ≤ l.length → 1 / 2 ^ 1021 ≤ ((l.take k).foldl Adaptive.adapt a).current) →
      |(adaptsF ieee a l).current - (l.foldl Adaptive.adapt a).current| ≤ ((1 + w) ^ l.length - 1) * (l.foldl Adaptive.adapt a).current := by
    intro l
    induction l using List.reverseRecOn with
    | nil => intro _ _; simp [adaptsF]
    | append_singleton l d ih =>
      intro hl hx
      have hl' : l.length + 1 ≤ 2 ^ 50 := by simpa using hl
      have ih := ih (by omega) (by
        intro k hk
        have := hx k (by simp; omega)
        rwa [List.take_append_of_le_length hk] at this)
      have hlast := hx (l ++ [d]).length le_rfl
      rw [List.take_length] at hlast
      have hk := hconst l
      have hkF := adaptsF_const ieee a l
      have hX := hpos l
      unfold adaptsF at ih hkF ⊢
      rw [List.foldl_append] at hlast ⊢
      rw [List.foldl_append]
      simp only [List.foldl_cons, List.foldl_nil] at hlast ⊢
      rw [List.length_append, List.length_singleton, pow_succ]
      generalize l.foldl Adaptive.adapt a = b at ih hk hX hlast ⊢
      generalize l.foldl (adaptF ieee) a = b' at ih hkF ⊢
      have hq := hsmall (l.length + 1) hl'
      rw [pow_succ] at hq
      have hb : 2 * (2 : ℚ) ^ (((53 : Nat) : Int) - 1 - (1074 : Nat)) = 1 / 2 ^ 1021 := by
        rw [ieee_limits.1, zpow_neg, ← one_div, half_pow 1021]
        norm_cast
      have hstep : ∀ f : ℚ, 0 < f → 1 / 2 ^ 1021 ≤ b.current * f →
          |ieee (b'.current * f) - b.current * f| ≤ ((1 + w) ^ l.length * (1 + w) - 1) * (b.current * f) := by
        intro f hf hbf
        exact step_err (p := 53) (m := 1074) (by norm_num) hw hf hX (le_trans hq.1 hq.2) (one_le_pow₀ (by linarith)) ih (by rw [hb]; exact hbf)
      unfold adaptF Adaptive.adapt at *
      rw [hk.1] at hlast ⊢
      rw [hkF.1]
      by_cases hd : a.desired < d
      · rw [if_pos hd] at hlast ⊢
        rw [if_pos hd]
        simp only at hlast ⊢
        rw [hk.2] at hlast ⊢
        rw [hkF.2.1, div_eq_mul_one_div, div_eq_mul_one_div b.current]
        rw [div_eq_mul_one_div b.current] at hlast
        exact hstep (1 / a.coeff) (by positivity) hlast
      · rw [if_neg hd] at hlast ⊢
        rw [if_neg hd]
        simp only at hlast ⊢
        rw [hk.2] at hlast ⊢
        rw [hkF.2.1]
        exact hstep a.coeff hc0 hlast
  refine le_trans (key ds hn hx) (mul_le_mul_of_nonneg_right ?_ (hpos ds).le)
  refine le_trans (hsmall _ hn).1 (le_of_eq ?_)
  rw [hw]
  ring

example : ∀ k, k ≤ [(1 : ℚ), 0, 1].length → (1 : ℚ) / 2 ^ 1021 ≤ (([(1 : ℚ), 0, 1].take k).foldl Adaptive.adapt exAdaptive).current := by
  decide +kernel

end Machin.Precision
