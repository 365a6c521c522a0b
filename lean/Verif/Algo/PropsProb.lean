import Mathlib.Tactic.Linarith
import Mathlib.Tactic.Ring
import Mathlib.Tactic.FieldSimp
import Mathlib.Tactic.Positivity
import Verif.Algo.Prob

/-! # Properties: noisy discrete actions (C98), the clipped objective (C103), normalised advantages (C105) -/

namespace Machin.Algo

/-! ### C98 -/

/-- C98 in full: for every matrix of probabilities the call returns one action for each row. -/
def C98_full : Prop :=
  ∀ (p : ℝ) (rows : List (List ℝ)) (draws : List (List Nat)), isProbs rows = true → draws.length = rows.length →
    (∀ d ∈ draws, d.length = rows.length) →
    (∃ r, actDiscreteNoise p rows draws = .ok r ∧ r.1.length = rows.length) ∧
    ∃ r, maddpgDiscreteNoise rows draws = .ok r ∧ r.1.length = rows.length

theorem isProbs_two : isProbs [[1, 0], [0, 1]] = true := by
  simp only [isProbs, decide_eq_true_eq]
  intro row hrow
  simp only [List.mem_cons, List.not_mem_nil, or_false] at hrow
  rcases hrow with rfl | rfl
  · refine ⟨by norm_num, ?_⟩
    intro x hx
    simp only [List.mem_cons, List.not_mem_nil, or_false] at hx
    rcases hx with rfl | rfl <;> norm_num
  · refine ⟨by norm_num, ?_⟩
    intro x hx
    simp only [List.mem_cons, List.not_mem_nil, or_false] at hx
    rcases hx with rfl | rfl <;> norm_num

/-- C98 is violated: with two rows, `sample([2, 1])` of a distribution over two rows has four elements, which cannot be viewed as
a `[2, 1]` tensor. -/
theorem C98_violated : ¬ C98_full := by
  intro h
  obtain ⟨⟨r, hr, _⟩, _⟩ := h (1 / 2) [[1, 0], [0, 1]] [[0, 1], [1, 0]] isProbs_two rfl (by simp)
  simp [actDiscreteNoise, isProbs_two, sampleView] at hr

/-- C98: every batch of two or more rows fails, in DDPG and in MADDPG. -/
theorem C98_violated_batches (p : ℝ) (rows : List (List ℝ)) (draws : List (List Nat)) (hp : isProbs rows = true) (hb : 2 ≤ rows.length) :
    actDiscreteNoise p rows draws = .error .runtime ∧ maddpgDiscreteNoise rows draws = .error .runtime := by
  have : ¬ rows.length * rows.length = rows.length := by
    intro h
    have := Nat.mul_le_mul_right rows.length hb
    omega
  simp [actDiscreteNoise, maddpgDiscreteNoise, hp, sampleView, this]

/-- C98, the part that holds: for a single row one drawn action is returned together with the row drawn from; something that is
not a matrix of probabilities is refused. -/
theorem C98_single_partial (p : ℝ) (row : List ℝ) (a : Nat) :
    (isProbs [row] = true → actDiscreteNoise p [row] [[a]] = .ok ([a], [noisyRow p row.length row]) ∧
      maddpgDiscreteNoise [row] [[a]] = .ok ([a], [row])) ∧
    ∀ rows draws, isProbs rows = false → actDiscreteNoise p rows draws = .error .value ∧ maddpgDiscreteNoise rows draws = .error .value := by
  refine ⟨fun h => ?_, fun rows draws h => ?_⟩
  · simp [actDiscreteNoise, maddpgDiscreteNoise, h, sampleView, columns]
  · simp [actDiscreteNoise, maddpgDiscreteNoise, h]

theorem sum_exp_pos {l : List ℝ} (h : l ≠ []) : 0 < (l.map Real.exp).sum := by
  cases l with
  | nil => exact absurd rfl h
  | cons x xs =>
    simp only [List.map_cons, List.sum_cons]
    have : 0 ≤ (xs.map Real.exp).sum := by
      apply List.sum_nonneg
      intro y hy
      simp only [List.mem_map] at hy
      obtain ⟨z, _, rfl⟩ := hy
      exact le_of_lt (Real.exp_pos z)
    have := Real.exp_pos x
    linarith

theorem softmax_sum {l : List ℝ} (h : l ≠ []) : (softmax l).sum = 1 := by
  have : ∀ (c : ℝ) (m : List ℝ), (m.map fun x => Real.exp x / c).sum = (m.map Real.exp).sum / c := by
    intro c m
    induction m with
    | nil => simp
    | cons x xs ih => simp only [List.map_cons, List.sum_cons, ih]; ring
  unfold softmax
  rw [this]
  exact div_self (ne_of_gt (sum_exp_pos h))

/-- C98: the probabilities drawn from form a distribution with no zero entry, of the same length as the row of the actor,
whenever noise applies at all. -/
theorem C98_distribution_partial (p : ℝ) (row : List ℝ) (hn : 1 < row.length) (hp : p < 1) :
    (noisyRow p row.length row).length = row.length ∧ (noisyRow p row.length row).sum = 1 ∧ ∀ x ∈ noisyRow p row.length row, 0 < x := by
  have hne : row.map (fun x => x * noiseScale row.length p) ≠ [] := by
    intro hc
    rw [List.map_eq_nil_iff] at hc
    rw [hc] at hn
    simp at hn
  unfold noisyRow
  rw [if_pos ⟨hn, hp⟩]
  refine ⟨by simp [softmax], softmax_sum hne, ?_⟩
  intro x hx
  simp only [softmax, List.mem_map] at hx
  obtain ⟨z, _, rfl⟩ := hx
  exact div_pos (Real.exp_pos _) (sum_exp_pos hne)

/-- C98: an entry larger in the actor's row stays larger, provided `choose_max_prob` is more than one over the number of actions. -/
theorem C98_order_partial (p : ℝ) (row : List ℝ) (hn : 1 < row.length) (hp0 : 1 / (row.length : ℝ) < p) (hp : p < 1) (i j : Nat) (x y : ℝ)
    (hi : row[i]? = some x) (hj : row[j]? = some y) (hxy : x < y) :
    ∃ u v, (noisyRow p row.length row)[i]? = some u ∧ (noisyRow p row.length row)[j]? = some v ∧ u < v := by
  have hne : row.map (fun x => x * noiseScale row.length p) ≠ [] := by
    intro hc
    rw [List.map_eq_nil_iff] at hc
    rw [hc] at hn
    simp at hn
  have hnr : (1 : ℝ) < (row.length : ℝ) := by exact_mod_cast hn
  have hs : 0 < noiseScale row.length p := by
    unfold noiseScale
    apply Real.log_pos
    have h1 : 0 < 1 - p := by linarith
    rw [div_mul_eq_mul_div, lt_div_iff₀ h1]
    have : 1 < p * (row.length : ℝ) := by
      rwa [div_lt_iff₀ (by linarith)] at hp0
    nlinarith
  unfold noisyRow
  rw [if_pos ⟨hn, hp⟩]
  refine ⟨_, _, by simp [softmax, hi]; rfl, by simp [softmax, hj]; rfl, ?_⟩
  apply div_lt_div_of_pos_right _ (by simpa using sum_exp_pos hne)
  exact Real.exp_lt_exp.mpr (mul_lt_mul_of_pos_right hxy hs)

/-- C98: on an extreme row (one entry 1, all others 0) the large entry is drawn with probability exactly `choose_max_prob`, and the
others share the rest equally. -/
theorem C98_extreme_partial (p : ℝ) (n k : Nat) (hn : 1 < n) (hk : k < n) (hp0 : 0 < p) (hp : p < 1) (i : Nat) (hi : i < n) :
    (noisyRow p n ((List.range n).map fun j => if j = k then (1 : ℝ) else 0))[i]? =
      some (if i = k then p else (1 - p) / ((n : ℝ) - 1)) := by
  have hnr : (1 : ℝ) < (n : ℝ) := by exact_mod_cast hn
  have h1 : 0 < 1 - p := by linarith
  have hpos : 0 < ((n : ℝ) - 1) / (1 - p) * p := mul_pos (div_pos (by linarith) h1) hp0
  have hexp : Real.exp (noiseScale n p) = ((n : ℝ) - 1) / (1 - p) * p := Real.exp_log hpos
  have hsum : ∀ m, ((List.range m).map fun j => Real.exp ((if j = k then (1 : ℝ) else 0) * noiseScale n p)).sum =
      if k < m then (m : ℝ) - 1 + Real.exp (noiseScale n p) else (m : ℝ) := by
    intro m
    induction m with
    | zero => simp
    | succ m ih =>
      rw [List.range_succ, List.map_append, List.sum_append, ih]
      simp only [List.map_cons, List.map_nil, List.sum_cons, List.sum_nil, add_zero, Nat.cast_add, Nat.cast_one]
      by_cases h2 : k < m
      · have h3 : ¬ m = k := by omega
        have h4 : k < m + 1 := by omega
        simp only [h2, h3, h4, ↓reduceIte, zero_mul, Real.exp_zero]
        ring
      · by_cases h3 : m = k
        · have h4 : k < m + 1 := by omega
          simp only [h2, h3, h4, ↓reduceIte, one_mul, lt_irrefl]
          simp
        · have h4 : ¬ k < m + 1 := by omega
          simp [h2, h3, h4]
  unfold noisyRow
  rw [if_pos ⟨hn, hp⟩]
  simp only [softmax, List.map_map, List.getElem?_map, Function.comp_def]
  rw [List.getElem?_range hi]
  simp only [Option.map_some, Option.some.injEq]
  rw [hsum n, if_pos hk]
  split
  · rw [one_mul, hexp]
    have : (n : ℝ) - 1 ≠ 0 := by linarith
    have h2 : (1 - p) ≠ 0 := ne_of_gt h1
    have h3 : (n : ℝ) - 1 + ((n : ℝ) - 1) / (1 - p) * p = ((n : ℝ) - 1) / (1 - p) := by
      field_simp
      ring
    rw [h3, mul_comm, mul_div_assoc, div_self (div_ne_zero this h2), mul_one]
  · rw [zero_mul, Real.exp_zero, hexp]
    have : (n : ℝ) - 1 ≠ 0 := by linarith
    field_simp
    ring

/-- Non-vacuity of C98: a row accepted by the call. -/
example : isProbs [[(1 : ℝ) / 4, 3 / 4]] = true ∧ (1 : ℝ) / (([(1 : ℝ) / 4, 3 / 4] : List ℝ).length : ℝ) < 95 / 100 := by
  refine ⟨?_, by norm_num⟩
  simp only [isProbs, decide_eq_true_eq]
  intro row hrow
  simp only [List.mem_singleton] at hrow
  subst hrow
  refine ⟨by norm_num, ?_⟩
  intro x hx
  simp only [List.mem_cons, List.not_mem_nil, or_false] at hx
  rcases hx with rfl | rfl <;> norm_num

/-! ### C103 -/

/-- C103: at the old policy the objective is the advantage. -/
theorem C103_at_old (clip lp adv : ℝ) (hc : 0 ≤ clip) : surrogate clip lp lp adv = adv := by
  simp only [surrogate, sub_self, Real.exp_zero, clampR]
  rw [max_eq_right (by linarith), min_eq_right (by linarith : (1 : ℝ) ≤ 1 + clip), one_mul, min_self]

/-- C103: the clipped objective never exceeds the unclipped one. -/
theorem C103_lower_bound (clip new old adv : ℝ) : surrogate clip new old adv ≤ Real.exp (new - old) * adv := min_le_left _ _

/-- C103: for a good action (advantage not negative) the ratio counts only up to `1 + clip`; for a bad one it counts only from
`1 - clip`. -/
theorem C103_closed_form (clip new old adv : ℝ) (hc : 0 ≤ clip) :
    (0 ≤ adv → surrogate clip new old adv = min (Real.exp (new - old)) (1 + clip) * adv) ∧
    (adv ≤ 0 → surrogate clip new old adv = max (Real.exp (new - old)) (1 - clip) * adv) := by
  generalize hr : Real.exp (new - old) = r
  unfold surrogate clampR
  rw [hr]
  dsimp only
  refine ⟨fun ha => ?_, fun ha => ?_⟩
  · rcases le_total r (1 - clip) with h1 | h1
    · rw [max_eq_left h1, min_eq_right (by linarith : 1 - clip ≤ 1 + clip), min_eq_left (mul_le_mul_of_nonneg_right h1 ha),
        min_eq_left (by linarith : r ≤ 1 + clip)]
    · rw [max_eq_right h1, min_comm (1 + clip) r]
      exact min_eq_right (mul_le_mul_of_nonneg_right (min_le_left _ _) ha)
  · rcases le_total r (1 + clip) with h1 | h1
    · rw [min_eq_right (max_le (by linarith) h1), max_comm (1 - clip) r]
      exact min_eq_right (mul_le_mul_of_nonpos_right (le_max_left _ _) ha)
    · rw [max_eq_right (by linarith : 1 - clip ≤ r), min_eq_left h1, min_eq_left (mul_le_mul_of_nonpos_right h1 ha),
        max_eq_left (by linarith)]

/-- C103: nothing is gained by moving further once the ratio has left the interval in the profitable direction: the objective no
longer depends on the new policy. -/
theorem C103_no_gain_outside (clip old adv new new' : ℝ) (hc : 0 ≤ clip) :
    (0 ≤ adv → 1 + clip ≤ Real.exp (new - old) → 1 + clip ≤ Real.exp (new' - old) → surrogate clip new old adv = surrogate clip new' old adv) ∧
    (adv ≤ 0 → Real.exp (new - old) ≤ 1 - clip → Real.exp (new' - old) ≤ 1 - clip → surrogate clip new old adv = surrogate clip new' old adv) := by
  refine ⟨fun ha h h' => ?_, fun ha h h' => ?_⟩
  · rw [(C103_closed_form clip new old adv hc).1 ha, (C103_closed_form clip new' old adv hc).1 ha, min_eq_right h, min_eq_right h']
  · rw [(C103_closed_form clip new old adv hc).2 ha, (C103_closed_form clip new' old adv hc).2 ha, max_eq_right h, max_eq_right h']

theorem sum_add_const (l : List ℝ) (c : ℝ) : (l.map (· + c)).sum = l.sum + (l.length : ℝ) * c := by
  induction l with
  | nil => simp
  | cons x xs ih =>
    simp only [List.map_cons, List.sum_cons, ih, List.length_cons, Nat.cast_add, Nat.cast_one]
    ring

/-- C103: the loss is minus the average objective plus the entropy weight times the average entropy; so a positive weight
penalises entropy and a negative one rewards it. -/
theorem C103_loss (clip w : ℝ) (entropies : List ℝ) (rows : List (ℝ × ℝ × ℝ)) (hr : rows ≠ []) :
    ppoLoss clip none entropies rows = (rows.map fun r => -surrogate clip r.1 r.2.1 r.2.2).sum / (rows.length : ℝ) ∧
    ppoLoss clip (some w) entropies rows = ppoLoss clip none entropies rows + w * (entropies.sum / (entropies.length : ℝ)) := by
  have hl : (rows.length : ℝ) ≠ 0 := by
    have : rows.length ≠ 0 := fun hc => hr (List.length_eq_zero_iff.mp hc)
    exact_mod_cast this
  refine ⟨by simp [ppoLoss, meanR], ?_⟩
  simp only [ppoLoss, meanR, sum_add_const, List.length_map]
  field_simp

/-- C103: at the start of an update, when the new and the old log probabilities agree, the loss is minus the average advantage. -/
theorem C103_loss_at_old (clip : ℝ) (hc : 0 ≤ clip) (entropies : List ℝ) (rows : List (ℝ × ℝ × ℝ)) (h : ∀ r ∈ rows, r.1 = r.2.1) :
    ppoLoss clip none entropies rows = -((rows.map fun r => r.2.2).sum / (rows.length : ℝ)) := by
  have : (rows.map fun r => -surrogate clip r.1 r.2.1 r.2.2) = rows.map fun r => -r.2.2 := by
    apply List.map_congr_left
    intro r hrr
    rw [h r hrr, C103_at_old _ _ _ hc]
  have hneg : ∀ l : List (ℝ × ℝ × ℝ), (l.map fun r => -r.2.2).sum = -(l.map fun r => r.2.2).sum := by
    intro l
    induction l with
    | nil => simp
    | cons x xs ih => simp only [List.map_cons, List.sum_cons, ih]; ring
  simp only [ppoLoss, meanR, this, hneg, List.length_map, neg_div]

example : surrogate (1 / 5) (Real.log 2) (Real.log 1) 3 = 18 / 5 ∧ surrogate (1 / 5) (Real.log 2) (Real.log 1) (-3) = -6 := by
  have h : Real.exp (Real.log 2 - Real.log 1) = 2 := by rw [Real.log_one, sub_zero, Real.exp_log (by norm_num)]
  constructor
  · rw [(C103_closed_form _ _ _ _ (by norm_num)).1 (by norm_num), h]; norm_num
  · rw [(C103_closed_form _ _ _ _ (by norm_num)).2 (by norm_num), h]; norm_num

/-! ### C105 -/

/-- C105 in full: the normalised advantages of a non-empty batch are numbers whose average is 0. -/
def C105_full : Prop :=
  ∀ l : List ℝ, l ≠ [] → ∃ r : List ℝ, normalize l = r.map some ∧ r.sum = 0

/-- C105 is violated: for a batch of one transition the unbiased standard deviation is nan, and so is the normalised advantage
(and with it the loss and, after the step, every parameter of the actor). -/
theorem C105_violated : ¬ C105_full := by
  intro h
  obtain ⟨r, hr, _⟩ := h [1] (by simp)
  simp only [normalize, stdR, List.length_singleton, Nat.one_lt_ofNat, ↓reduceIte, Option.map_none, List.map_cons, List.map_nil] at hr
  cases r with
  | nil => simp at hr
  | cons x xs => simp at hr

theorem sum_sub_mean (l : List ℝ) (hl : l ≠ []) (d : ℝ) : (l.map fun x => (x - meanR l) / d).sum = 0 := by
  have hl' : (l.length : ℝ) ≠ 0 := by
    have : l.length ≠ 0 := fun hc => hl (List.length_eq_zero_iff.mp hc)
    exact_mod_cast this
  have : ∀ (c : ℝ) (m : List ℝ), (m.map fun x => (x - c) / d).sum = (m.sum - (m.length : ℝ) * c) / d := by
    intro c m
    induction m with
    | nil => simp
    | cons x xs ih =>
      simp only [List.map_cons, List.sum_cons, ih, List.length_cons, Nat.cast_add, Nat.cast_one]
      ring
  rw [this, meanR, mul_div_cancel₀ _ hl', sub_self, zero_div]

/-- C105, the part that holds: with two or more transitions the normalised advantages are numbers, their average is 0, their
order is that of the advantages, and their sum of squares is at most the number of transitions minus one (a variance of at most
one). -/
theorem C105_batch_partial (l : List ℝ) (hl : 2 ≤ l.length) :
    ∃ r : List ℝ, normalize l = r.map some ∧ r.length = l.length ∧ r.sum = 0 ∧
      (∀ (i j : Nat) (x y u v : ℝ), l[i]? = some x → l[j]? = some y → r[i]? = some u → r[j]? = some v → (x < y ↔ u < v)) ∧
      (r.map fun u => u ^ 2).sum ≤ (l.length : ℝ) - 1 := by
  have hne : l ≠ [] := by
    intro hc
    rw [hc] at hl
    simp at hl
  have hn : (2 : ℝ) ≤ (l.length : ℝ) := by exact_mod_cast hl
  set V := (l.map fun x => (x - meanR l) ^ 2).sum with hV
  have hV0 : 0 ≤ V := by
    apply List.sum_nonneg
    intro y hy
    simp only [List.mem_map] at hy
    obtain ⟨z, _, rfl⟩ := hy
    positivity
  set s := Real.sqrt (V / ((l.length : ℝ) - 1)) with hs
  have hs0 : 0 ≤ s := Real.sqrt_nonneg _
  have hd : 0 < s + 1 / 1000000 := by linarith
  have hstd : stdR l = some s := by
    unfold stdR
    rw [if_neg (by omega)]
  refine ⟨l.map fun x => (x - meanR l) / (s + 1 / 1000000), ?_, by simp, sum_sub_mean l hne _, ?_, ?_⟩
  · simp [normalize, hstd]
  · intro i j x y u v hi hj hu hv
    simp only [List.getElem?_map, hi, Option.map_some, Option.some.injEq] at hu
    simp only [List.getElem?_map, hj, Option.map_some, Option.some.injEq] at hv
    rw [← hu, ← hv, div_lt_div_iff_of_pos_right hd]
    constructor <;> intro h <;> linarith
  · have : ∀ (c d : ℝ) (m : List ℝ), ((m.map fun x => (x - c) / d).map fun u => u ^ 2).sum = (m.map fun x => (x - c) ^ 2).sum / d ^ 2 := by
      intro c d m
      induction m with
      | nil => simp
      | cons x xs ih =>
        simp only [List.map_cons, List.sum_cons, ih, div_pow]
        ring
    rw [this, ← hV, div_le_iff₀ (by positivity)]
    have hsq : s ^ 2 = V / ((l.length : ℝ) - 1) := Real.sq_sqrt (div_nonneg hV0 (by linarith))
    have h1 : V = ((l.length : ℝ) - 1) * s ^ 2 := by
      rw [hsq]
      have : (l.length : ℝ) - 1 ≠ 0 := by linarith
      field_simp
    rw [h1]
    apply mul_le_mul_of_nonneg_left _ (by linarith)
    nlinarith

example : (2 : Nat) ≤ ([1, 3] : List ℝ).length ∧ meanR [1, 3] = 2 := by
  refine ⟨by simp, ?_⟩
  simp only [meanR, List.sum_cons, List.sum_nil, List.length_cons, List.length_nil]
  norm_num

end Machin.Algo
