import Verif.Precision.Lemmas
import Verif.Precision.Spec
import Verif.Project.PropsRound

/-! # C245, C246, C247: soft updates, bias correction and uniform noise in floating point -/

namespace Machin.Precision

open Machin.Prio Machin.Prio.Spec Machin.Project Machin.Project.Spec
open Machin.Update (Net)

variable {d f : ℚ → ℚ} {v u : ℚ}

/-! ### C245 -/

/-- The usual update rate of the examples. -/
def rate200 : ℚ := double (1 / 200)

/-- The whole property, what holds in exact arithmetic: a target equal to its source stays equal, and the distance of a target to a fixed
source falls below every bound. -/
def C245_full : Prop :=
  (∀ (rate x : ℚ), 0 < rate → rate < 1 → double rate = rate → single x = x → softF double single rate x x = x) ∧
  ∀ (rate t s ε : ℚ), 0 < rate → rate < 1 → double rate = rate → single t = t → single s = s → 0 < ε →
    ∃ k, |softIter double single rate s k t - s| < ε

/-- A parameter 3 of a target that equals its source changes. -/
theorem C245_violated_moves : single 3 = 3 ∧ softF double single rate200 3 3 = 12582913 / 4194304 ∧ (3 : ℚ) < 12582913 / 4194304 := by
  refine ⟨by decide +kernel, by decide +kernel, by decide +kernel⟩

/-- 25 · 2⁻²² away from a source of 1 the update changes nothing; so it is on the other side, at 75 · 2⁻²². -/
theorem C245_violated_stuck : (∀ k, softIter double single rate200 1 k (4194279 / 4194304) = 4194279 / 4194304) ∧
    ∀ k, softIter double single rate200 1 k (4194379 / 4194304) = 4194379 / 4194304 := by
  have h1 : softF double single rate200 (4194279 / 4194304) 1 = 4194279 / 4194304 := by decide +kernel
  have h2 : softF double single rate200 (4194379 / 4194304) 1 = 4194379 / 4194304 := by decide +kernel
  constructor
  · intro k
    induction k with
    | zero => rfl
    | succ k ih => rw [softIter, ih, h1]
  · intro k
    induction k with
    | zero => rfl
    | succ k ih => rw [softIter, ih, h2]

theorem C245_violated : ¬ C245_full := by
  rintro ⟨h, -⟩
  have := h rate200 3 (by decide +kernel) (by decide +kernel) (by decide +kernel) C245_violated_moves.1
  rw [C245_violated_moves.2.1] at this
  norm_num at this

/-- The second half fails by itself. -/
theorem C245_violated_limit : ¬ ∀ (rate t s ε : ℚ), 0 < rate → rate < 1 → double rate = rate → single t = t → single s = s → 0 < ε →
    ∃ k, |softIter double single rate s k t - s| < ε := by
  intro h
  obtain ⟨k, hk⟩ := h rate200 (4194279 / 4194304) 1 (1 / 1000000) (by decide +kernel) (by decide +kernel) (by decide +kernel)
    (by decide +kernel) (by decide +kernel) (by norm_num)
  rw [C245_violated_stuck.1 k] at hk
  norm_num [abs_of_neg] at hk

/-- One soft update: the distance to the source shrinks by the factor `1 - rate`, up to five units of rounding of the distance and of the
source. Missing from the whole property: the rounding. -/
theorem C245_step_partial (ha : Arith d f v u) (rate : ℚ) (h0 : 0 ≤ rate) (h1 : rate ≤ 1) (target source : Net ℚ) (i : Nat) (t s : ℚ)
    (ht : target.params[i]? = some t) (hs : source.params[i]? = some s) :
    ∃ t', (softUpdateF d f target source rate).params[i]? = some t' ∧ |t' - s| ≤ (1 - rate + 5 * u) * |t - s| + 5 * u * |s| :=
  ⟨_, zipInto_get _ _ _ i t s ht hs, softF_near ha h0 h1 t s⟩

/-- Repeated soft updates towards one source: geometric up to a limit proportional to the source. -/
theorem C245_repeat_partial (ha : Arith d f v u) (rate : ℚ) (h1 : rate ≤ 1) (hr : 5 * u < rate) (target source : Net ℚ) (i : Nat) (t s : ℚ)
    (ht : target.params[i]? = some t) (hs : source.params[i]? = some s) (k : Nat) :
    ∃ t', (softRunF d f source rate k target).params[i]? = some t' ∧
      |t' - s| ≤ (1 - rate + 5 * u) ^ k * |t - s| + 5 * u * |s| / (rate - 5 * u) :=
  ⟨_, softRunF_get d f source rate target i t s ht hs k, softIter_near ha h1 hr t s k⟩

/-- For single precision and a rate of at least 0.001: the factor is below 0.9991, and the limit within 0.03 % of the source. -/
theorem C245_single_partial (rate : ℚ) (h1 : rate ≤ 1) (hr : 1 / 1000 ≤ rate) (target source : Net ℚ) (i : Nat) (t s : ℚ)
    (ht : target.params[i]? = some t) (hs : source.params[i]? = some s) (k : Nat) :
    ∃ t', (softRunF double single source rate k target).params[i]? = some t' ∧ |t' - s| ≤ (9991 / 10000) ^ k * |t - s| + 3 / 10000 * |s| := by
  obtain ⟨t', e, hb⟩ := C245_repeat_partial C244_precisions rate h1 (lt_of_lt_of_le (by norm_num) hr) target source i t s ht hs k
  refine ⟨t', e, le_trans hb ?_⟩
  have hp : (1 - rate + 5 * (1 / 2 ^ 24)) ^ k ≤ ((9991 : ℚ) / 10000) ^ k := by
    apply pow_le_pow_left₀
    · have : (0 : ℚ) ≤ 5 * (1 / 2 ^ 24) := by norm_num
      linarith
    · have : (5 : ℚ) * (1 / 2 ^ 24) ≤ 1 / 10000 := by norm_num
      linarith
  have hq : 5 * (1 / 2 ^ 24) * |s| / (rate - 5 * (1 / 2 ^ 24)) ≤ 3 / 10000 * |s| := by
    have h2 : (999 : ℚ) / 1000000 ≤ rate - 5 * (1 / 2 ^ 24) := by
      have : (5 : ℚ) * (1 / 2 ^ 24) ≤ 1 / 1000000 := by norm_num
      linarith
    rw [div_le_iff₀ (by linarith)]
    have h3 := mul_le_mul_of_nonneg_left h2 (by positivity : 0 ≤ 3 / 10000 * |s|)
    have h4 : (5 : ℚ) * (1 / 2 ^ 24) * |s| ≤ 3 / 10000 * |s| * (999 / 1000000) + 1 / 10000000 * |s| := by
      have := abs_nonneg s
      nlinarith
    have := abs_nonneg s
    nlinarith
  have := mul_le_mul_of_nonneg_right hp (abs_nonneg (t - s))
  linarith

/-- A target without any rounding to do stays put: a source and target of 0, and both ends of a rate. -/
theorem C245_exact_partial (ha : Arith d f v u) (h1 : d 1 = 1) (h1' : f 1 = 1) (t s : ℚ) (ht : f t = t) (hs : f s = s) :
    softF d f 0 t s = t ∧ softF d f 1 t s = s ∧ ∀ rate, softF d f rate 0 0 = 0 := by
  have hz := ha.el.zero
  have hz' := ha.py.zero
  refine ⟨?_, ?_, ?_⟩
  · simp [softF, h1, h1', hz, ht]
  · simp [softF, h1', hz, hz', hs]
  · intro rate
    simp [softF, hz]

/-- The other parts of a network, and parameters one of the networks lacks, are untouched. -/
theorem C245_frame_partial (d f : ℚ → ℚ) (source : Net ℚ) (rate : ℚ) (target : Net ℚ) (k : Nat) : (softRunF d f source rate k target).buffers = target.buffers ∧
    (softRunF d f source rate k target).params.length = target.params.length := by
  refine ⟨softRunF_buffers d f source rate target k, ?_⟩
  have hl : ∀ (g : ℚ → ℚ → ℚ) (ts ss : List ℚ), (Update.zipInto g ts ss).length = ts.length := by
    intro g ts
    induction ts with
    | nil => intro ss; cases ss <;> rfl
    | cons t ts ih => intro ss; cases ss <;> simp [Update.zipInto, ih]
  induction k with
  | zero => rfl
  | succ k ih => exact (hl _ _ _).trans ih

example : (softRunF double single ⟨[1, 3], [7]⟩ rate200 2 ⟨[0, 3], [8]⟩).params.length = 2 ∧ 5 * (1 / 2 ^ 24 : ℚ) < rate200 ∧ rate200 ≤ 1 ∧
    1 / 1000 ≤ rate200 ∧ double 1 = 1 ∧ single 1 = 1 := by decide +kernel

example : ∃ t', (softRunF double single ⟨[1, 3], [7]⟩ rate200 1000 ⟨[0, 3], [8]⟩).params[0]? = some t' ∧ |t' - 1| ≤ (9991 / 10000) ^ 1000 * |0 - 1| + 3 / 10000 * |1| :=
  C245_single_partial rate200 (by decide +kernel) (by decide +kernel) _ _ 0 0 1 rfl rfl 1000

/-! ### C246 -/

/-- The whole property, what holds in exact arithmetic: with a positive increment the exponent reaches 1 and the bias is fully corrected. -/
def C246_full : Prop :=
  ∀ (beta inc : ℚ), double beta = beta → double inc = inc → 0 ≤ beta → beta ≤ 1 → 0 < inc → ∃ k, betaRunF double inc k beta = 1

/-- An increment of 2⁻⁶⁰ never changes an exponent of 1/2. -/
theorem C246_violated_still (k : Nat) : betaRunF double (1 / 2 ^ 60) k (1 / 2) = 1 / 2 := by
  have h : betaF double (1 / 2 ^ 60) (1 / 2) = 1 / 2 := by decide +kernel
  induction k with
  | zero => rfl
  | succ k ih => rw [betaRunF, ih, h]

theorem C246_violated : ¬ C246_full := by
  intro h
  obtain ⟨k, hk⟩ := h (1 / 2) (1 / 2 ^ 60) (by decide +kernel) (by decide +kernel) (by norm_num) (by norm_num) (by norm_num)
  rw [C246_violated_still] at hk
  norm_num at hk

/-- The exponent never falls, never exceeds 1 and differs from the exact one by at most one unit of rounding per sampling. -/
theorem C246_beta_partial (hd : Rounding d v) (hv : 0 ≤ v) (h1 : d 1 = 1) (beta inc : ℚ) (hb : d beta = beta) (h0 : 0 ≤ beta) (hb1 : beta ≤ 1) (hi : 0 ≤ inc)
    (k : Nat) : beta ≤ betaRunF d inc k beta ∧ betaRunF d inc k beta ≤ betaRunF d inc (k + 1) beta ∧ betaRunF d inc k beta ≤ 1 ∧
      |betaRunF d inc k beta - min 1 (beta + k * inc)| ≤ k * v :=
  ⟨betaRunF_ge hd h1 hb hi hb1 k, betaRunF_step hd h1 hb hi hb1 k, betaRunF_le hb1 k, betaRunF_near hd h1 hv hb h0 hi hb1 k⟩

/-- With an increment above the unit of rounding it reaches 1 exactly, and stays there. -/
theorem C246_reaches_partial (hd : Rounding d v) (hv : 0 ≤ v) (h1 : d 1 = 1) (beta inc : ℚ) (hb : d beta = beta) (h0 : 0 ≤ beta) (hb1 : beta ≤ 1)
    (hi : v < inc) (k : Nat) (hk : (1 - beta) / (inc - v) ≤ k) : betaRunF d inc k beta = 1 := by
  rcases betaRunF_grow hd h1 hv hb h0 hi.le hb1 k with h | h
  · exact h
  · rw [div_le_iff₀ (by linarith)] at hk
    exact le_antisymm (betaRunF_le hb1 k) (by linarith)

/-- The defaults, 0.4 and 0.001: the exponent is 1 after 601 samplings. -/
theorem C246_default_partial (k : Nat) (hk : 601 ≤ k) : betaRunF double (double (1 / 1000)) k (double (2 / 5)) = 1 := by
  have hR := toNearest_rounding (p := 53) (by norm_num)
  have hb : (2 : ℚ) / 5 - 1 / 1000000 ≤ double (2 / 5) ∧ double (2 / 5) ≤ 1 := by decide +kernel
  have hi : (1 : ℚ) / 1000 - 1 / 1000000000 ≤ double (1 / 1000) - 1 / 2 ^ 53 := by decide +kernel
  refine C246_reaches_partial hR (by norm_num) (by decide +kernel) _ _ (hR.idem _) (le_trans (by norm_num) hb.1) hb.2 (by linarith) k ?_
  rw [div_le_iff₀ (by linarith)]
  have hk' : (601 : ℚ) ≤ k := by exact_mod_cast hk
  have := mul_le_mul hk' hi (by norm_num) (by linarith)
  have h3 : 1 - double (2 / 5) ≤ k * (double (1 / 1000) - 1 / 2 ^ 53) := by linarith [hb.1]
  exact h3

/-- The importance weights of a batch are positive and at most 1, the largest is exactly 1, and a larger priority never has a larger weight. -/
theorem C246_weights_partial (hd : Rounding d v) (h1 : d 1 = 1) (pw : ℚ → ℚ → ℚ) (hp : Spec.Power pw) (len : Nat) (sum beta : ℚ) (priority : List ℚ)
    (hl : 0 < len) (hs : 0 < sum) (hb0 : 0 ≤ beta) (hb1 : beta ≤ 1) (hpos : ∀ p ∈ priority, 0 < p) (hne : priority ≠ []) :
    (weightsF d pw len sum beta priority).length = priority.length ∧
    (∀ w ∈ weightsF d pw len sum beta priority, 0 < w ∧ w ≤ 1) ∧ 1 ∈ weightsF d pw len sum beta priority ∧
    ∀ (i j : Nat) (p q w x : ℚ), priority[i]? = some p → priority[j]? = some q → p ≤ q → (weightsF d pw len sum beta priority)[i]? = some w →
      (weightsF d pw len sum beta priority)[j]? = some x → x ≤ w := by
  have hlq : (0 : ℚ) < len := by exact_mod_cast hl
  have hbase : ∀ p, 0 < p → 0 < d ((len : ℚ) * d (p / sum)) := fun p h => fl_positive hd (mul_pos hlq (fl_positive hd (div_pos h hs)))
  generalize hxs : (priority.map fun p => pw (d ((len : ℚ) * d (p / sum))) beta) = xs
  have hxne : xs ≠ [] := by rw [← hxs]; simpa using hne
  have hxpos : ∀ x ∈ xs, 0 < x := by
    rw [← hxs]
    intro x hx
    obtain ⟨p, hp1, rfl⟩ := List.mem_map.1 hx
    exact hp.pos _ _ (hbase p (hpos p hp1)) hb0 hb1
  obtain ⟨hm1, hm2⟩ := maxOf_spec hxne
  have hm0 := hxpos _ hm1
  have hw : weightsF d pw len sum beta priority = xs.map fun x => d (x / maxOf xs) := by
    unfold weightsF
    rw [hxs]
  rw [hw]
  refine ⟨by rw [List.length_map, ← hxs, List.length_map], ?_, ?_, ?_⟩
  · intro w hw
    obtain ⟨x, hx, rfl⟩ := List.mem_map.1 hw
    refine ⟨fl_positive hd (div_pos (hxpos x hx) hm0), ?_⟩
    have := hd.mono _ _ ((div_le_one hm0).2 (hm2 x hx))
    rwa [h1] at this
  · refine List.mem_map.2 ⟨maxOf xs, hm1, ?_⟩
    rw [div_self hm0.ne', h1]
  · intro i j p q w x hi hj hpq hwi hxj
    have hpp := hpos p (List.mem_of_getElem? hi)
    have get : ∀ (i : Nat) (p : ℚ), priority[i]? = some p → (xs.map fun x => d (x / maxOf xs))[i]? = some (d (pw (d ((len : ℚ) * d (p / sum))) beta / maxOf xs)) := by
      intro i p h
      rw [List.getElem?_map]
      conv_lhs => rw [show xs[i]? = some (pw (d ((len : ℚ) * d (p / sum))) beta) by rw [← hxs, List.getElem?_map, h]; rfl]
      rfl
    rw [get i p hi] at hwi
    rw [get j q hj] at hxj
    cases hwi
    cases hxj
    refine hd.mono _ _ (div_le_div_of_nonneg_right ?_ hm0.le)
    refine hp.anti _ _ _ (hbase p hpp) (hd.mono _ _ (mul_le_mul_of_nonneg_left (hd.mono _ _ (div_le_div_of_nonneg_right hpq hs.le)) hlq.le)) hb0 hb1

/-- A power that meets the assumptions. -/
theorem power_ok : Spec.Power fun x b => 1 / (1 + b * x) := by
  refine ⟨fun x b hx hb _ => ?_, fun x y b hx hxy hb _ => ?_⟩
  · have := mul_nonneg hb hx.le
    exact div_pos one_pos (by linarith)
  · have h1 := mul_nonneg hb hx.le
    have h2 := mul_le_mul_of_nonneg_left hxy hb
    exact one_div_le_one_div_of_le (by linarith) (by linarith)

example : Spec.Power (fun x b => 1 / (1 + b * x)) ∧ (weightsF double (fun x b => 1 / (1 + b * x)) 4 10 1 [5, 1, 5])[1]? = some 1 ∧
    (weightsF double (fun x b => 1 / (1 + b * x)) 4 10 1 [5, 1, 5])[0]? = (weightsF double (fun x b => 1 / (1 + b * x)) 4 10 1 [5, 1, 5])[2]? :=
  ⟨power_ok, by decide +kernel, by decide +kernel⟩

example : betaRunF double (double (1 / 1000)) 3 (double (2 / 5)) = double (double (double (double (2 / 5) + double (1 / 1000)) + double (1 / 1000)) + double (1 / 1000)) := by
  decide +kernel

/-! ### C247 -/

/-- The whole property: for all bounds, the noise lies between the bounds as the tensor represents them. -/
def C247_full : Prop :=
  ∀ (lo hi r : ℚ), double lo = lo → double hi = hi → lo ≤ hi → 0 ≤ r → r ≤ 1 - 1 / 2 ^ 24 → single r = r →
    single lo ≤ uniformF double single lo hi r ∧ uniformF double single lo hi r ≤ single hi

/-- Bounds that single precision does not represent: the noise exceeds the rounded upper bound, and the upper bound itself. -/
theorem C247_violated_above : double (1 - 1 / 2 ^ 26) = 1 - 1 / 2 ^ 26 ∧ double (1 + 23 / 2 ^ 27) = 1 + 23 / 2 ^ 27 ∧
    uniformF double single (1 - 1 / 2 ^ 26) (1 + 23 / 2 ^ 27) (1 - 1 / 2 ^ 24) = 1 + 1 / 2 ^ 22 ∧ single (1 + 23 / 2 ^ 27) = 1 + 1 / 2 ^ 23 := by
  decide +kernel

theorem C247_violated : ¬ C247_full := by
  intro h
  obtain ⟨h1, h2, h3, h4⟩ := C247_violated_above
  have := (h _ _ (1 - 1 / 2 ^ 24) h1 h2 (by norm_num) (by norm_num) (le_refl _) (by decide +kernel)).2
  rw [h3, h4] at this
  norm_num at this

/-- For bounds that single precision represents the noise stays between them, for every draw `torch.rand` makes (multiples of 2⁻²⁴ below 1). -/
theorem C247_range_partial (lo hi r : ℚ) (hle : lo ≤ hi) (hlo : single lo = lo) (hhi : single hi = hi) (h0 : 0 ≤ r) (h1 : r ≤ 1 - 1 / 2 ^ 24) :
    lo ≤ uniformF double single lo hi r ∧ uniformF double single lo hi r ≤ hi :=
  uniformF_upper (p := 24) (by norm_num) rfl (toNearest_rounding (p := 53) (by norm_num)) (toNearest_toNearest (by norm_num) (by norm_num)) hle hlo hhi h0 h1

/-- So the action stays between the actions with the least and the largest noise. -/
theorem C247_action_partial (lo hi ratio a r : ℚ) (hle : lo ≤ hi) (hlo : single lo = lo) (hhi : single hi = hi) (h0 : 0 ≤ r) (h1 : r ≤ 1 - 1 / 2 ^ 24)
    (hr : 0 ≤ ratio) : single (a + single (lo * single ratio)) ≤ uniformActionF double single lo hi ratio a r ∧
      uniformActionF double single lo hi ratio a r ≤ single (a + single (hi * single ratio)) := by
  obtain ⟨l, h⟩ := C247_range_partial lo hi r hle hlo hhi h0 h1
  have hR := toNearest_rounding (p := 24) (by norm_num)
  have hm : ∀ x y, x ≤ y → single x ≤ single y := hR.mono
  have hr' : 0 ≤ single ratio := fl_nonneg hR hr
  constructor <;> refine hm _ _ (add_le_add_right (hm _ _ (mul_le_mul_of_nonneg_right ?_ hr')) a) <;> assumption

/-- The noise is monotone in the draw. -/
theorem C247_monotone_partial (ha : Arith d f v u) (lo hi r r' : ℚ) (hle : lo ≤ hi) (hr : r ≤ r') : uniformF d f lo hi r ≤ uniformF d f lo hi r' := by
  have hy : 0 ≤ f (d (hi - lo)) := fl_nonneg ha.el (fl_nonneg ha.py (by linarith))
  exact ha.el.mono _ _ (add_le_add_left (ha.el.mono _ _ (mul_le_mul_of_nonneg_right hr hy)) _)

/-- Unlike in exact arithmetic the upper bound itself is drawn; a draw of 0 gives the lower bound. -/
theorem C247_ends_partial : uniformF double single 1 2 (1 - 1 / 2 ^ 24) = 2 ∧ ∀ lo hi, single lo = lo → uniformF double single lo hi 0 = lo := by
  refine ⟨by decide +kernel, fun lo hi h => ?_⟩
  have hz : single 0 = 0 := (toNearest_rounding (p := 24) (by norm_num)).zero
  simp [uniformF, h, hz]

example : single (-1 / 2) = -1 / 2 ∧ single 3 = 3 ∧ -1 / 2 ≤ uniformF double single (-1 / 2) 3 (1 / 3) ∧ uniformF double single (-1 / 2) 3 (1 / 3) < 1 := by
  decide +kernel

end Machin.Precision
