import Verif.Precision.AdvantageLemmas
import Verif.Project.PropsRound

/-! # Properties: normalised advantages in single precision (C250) -/

namespace Machin.Precision

open Machin.Prio Machin.Prio.Spec Machin.Project Machin.Project.Spec

variable {d f : ℚ → ℚ} {v u : ℚ}

/-- C250 in full: in single precision a batch of two or more equal advantages, whose standard deviation is 0, is normalised to zeros, in
whichever order torch adds them. -/
def C250_full : Prop :=
  ∀ (t : Order) (c : ℚ), single c = c → 2 ≤ t.leaves.length → (∀ x ∈ t.leaves, x = c) → ∀ z ∈ normalizeF double single t 0 t.leaves, z = 0

/-- Three equal elements; up to the order of the operands there is no other tree. -/
def three (c : ℚ) : Order := .node (.node (.leaf c) (.leaf c)) (.leaf c)

/-- C250 is violated: three advantages of 1999.3 have a computed mean that differs from them, and the difference is divided by `1e-6`. -/
theorem C250_violated : ¬ C250_full := by
  intro h
  have := h (three (single (19993 / 10))) (single (19993 / 10)) (by decide +kernel) (by decide) (by simp [three, Order.leaves])
  revert this
  decide +kernel

/-- All three of them become less than `-122`, although none is below the average. -/
theorem C250_violated_size :
    normalizeF double single (three (single (19993 / 10))) 0 (three (single (19993 / 10))).leaves =
      [normAdvF double single (three (single (19993 / 10))) 0 (single (19993 / 10)),
       normAdvF double single (three (single (19993 / 10))) 0 (single (19993 / 10)),
       normAdvF double single (three (single (19993 / 10))) 0 (single (19993 / 10))] ∧
    normAdvF double single (three (single (19993 / 10))) 0 (single (19993 / 10)) < -122 := by
  refine ⟨rfl, ?_⟩
  decide +kernel

theorem single_scale (k : Nat) (x : ℚ) : single (2 ^ k * x) = 2 ^ k * single x := by
  induction k with
  | zero => simp
  | succ k ih =>
    have : single (2 * (2 ^ k * x)) = 2 * single (2 ^ k * x) := toNearest_two _
    rw [pow_succ, mul_comm ((2 : ℚ) ^ k), mul_assoc, this, ih, mul_assoc]

/-- There is no bound: for every `M` there are three equal advantages that are normalised to a number below `-M`. -/
theorem C250_violated_unbounded (M : ℕ) : ∃ c, single c = c ∧ normAdvF double single (three c) 0 c < -M := by
  refine ⟨2 ^ M * single (19993 / 10), ?_, ?_⟩
  · rw [single_scale]
    rw [C244_precisions.el.idem]
  · have hs : ∀ c, normAdvF double single (three (2 ^ M * c)) 0 (2 ^ M * c) = 2 ^ M * normAdvF double single (three c) 0 c := by
      intro c
      have hsum : (three (2 ^ M * c)).sumF single = 2 ^ M * (three c).sumF single := by
        simp only [three, Order.sumF]
        rw [← mul_add, single_scale, ← mul_add, single_scale]
      have hm : meanF single (three (2 ^ M * c)) = 2 ^ M * meanF single (three c) := by
        unfold meanF
        rw [hsum, mul_div_assoc]
        exact single_scale M _
      unfold normAdvF
      rw [hm, ← mul_sub, single_scale, mul_div_assoc, single_scale]
    rw [hs]
    have h1 := C250_violated_size.2
    generalize normAdvF double single (three (single (19993 / 10))) 0 (single (19993 / 10)) = z at *
    have h2 : ((M : ℚ)) < 2 ^ M := by exact_mod_cast Nat.lt_two_pow_self
    nlinarith

/-- The denominator is positive. -/
theorem C250_denominator (ha : Arith d f v u) {s : ℚ} (hs : 0 ≤ s) : 0 < denomF d f s ∧ f (d (1 / 1000000)) ≤ denomF d f s := by
  have h1 : 0 < f (d (1 / 1000000)) := fl_positive ha.el (fl_positive ha.py (by norm_num))
  refine ⟨fl_positive ha.el (by linarith), ?_⟩
  have := ha.el.mono (f (d (1 / 1000000))) (s + f (d (1 / 1000000))) (by linarith)
  rwa [ha.el.idem] at this

/-- The denominator is near the exact one. -/
theorem C250_denominator_error (ha : Arith d f v u) {s : ℚ} (hs : 0 ≤ s) :
    |denomF d f s - (s + 1 / 1000000)| ≤ 4 * u * (s + 1 / 1000000) := by
  have hu0 : 0 ≤ u := le_trans ha.pos ha.le
  have e1 := fl_err ha.py ha.pos (le_trans ha.le ha.small) (1 / 1000000)
  have n1 := fl_nonneg ha.py (by norm_num : (0 : ℚ) ≤ 1 / 1000000)
  have e2 := fl_err ha.el hu0 ha.small (d (1 / 1000000))
  have n2 := fl_nonneg ha.el n1
  have e3 := fl_err ha.el hu0 ha.small (s + f (d (1 / 1000000)))
  have n3 : 0 ≤ s + f (d (1 / 1000000)) := by linarith
  have hu1 := ha.small
  have hvu := ha.le
  unfold denomF
  rw [abs_of_nonneg n1] at e2
  rw [abs_of_nonneg n3] at e3
  rw [abs_of_nonneg (by norm_num : (0 : ℚ) ≤ 1 / 1000000)] at e1
  generalize f (s + f (d (1 / 1000000))) = z at *
  generalize f (d (1 / 1000000)) = y at *
  generalize d (1 / 1000000) = x at *
  obtain ⟨l1, r1⟩ := abs_le.1 e1
  obtain ⟨l2, r2⟩ := abs_le.1 e2
  obtain ⟨l3, r3⟩ := abs_le.1 e3
  have hx : x ≤ 102 / 100 * (1 / 1000000) := by linarith
  have ux := mul_le_mul_of_nonneg_left hx hu0
  have hy : y ≤ 105 / 100 * (1 / 1000000) := by nlinarith
  have uy := mul_le_mul_of_nonneg_left hy hu0
  have us := mul_nonneg hu0 hs
  rw [abs_le]
  constructor <;> linarith

/-- Normalisation keeps the order of the advantages, without any tolerance. -/
theorem C250_order (ha : Arith d f v u) (t : Order) {s a b : ℚ} (hs : 0 ≤ s) (h : a ≤ b) : normAdvF d f t s a ≤ normAdvF d f t s b := by
  have hd := (C250_denominator ha hs).1
  apply ha.el.mono
  exact div_le_div_of_nonneg_right (ha.el.mono _ _ (by linarith)) hd.le

/-- The sign tells on which side of the computed mean an advantage lies. -/
theorem C250_sign (ha : Arith d f v u) (t : Order) {s a : ℚ} (hs : 0 ≤ s) :
    (normAdvF d f t s a < 0 ↔ a < meanF f t) ∧ (0 < normAdvF d f t s a ↔ meanF f t < a) ∧ (normAdvF d f t s a = 0 ↔ a = meanF f t) := by
  have hd := (C250_denominator ha hs).1
  have neg : ∀ x, x < 0 → f x < 0 := by
    intro x hx
    have h1 := ha.el.mono x 0 hx.le
    rw [ha.el.zero] at h1
    rcases lt_or_eq_of_le h1 with h | h
    · exact h
    · have := ha.el.err x
      rw [h] at this
      simp at this
      linarith
  have pos : ∀ x, 0 < x → 0 < f x := fun x hx => fl_positive ha.el hx
  have h1 : a < meanF f t → normAdvF d f t s a < 0 := fun h => neg _ (div_neg_of_neg_of_pos (neg _ (by linarith)) hd)
  have h2 : meanF f t < a → 0 < normAdvF d f t s a := fun h => pos _ (div_pos (pos _ (by linarith)) hd)
  have h3 : a = meanF f t → normAdvF d f t s a = 0 := by
    intro h
    unfold normAdvF
    rw [h, sub_self, ha.el.zero, zero_div, ha.el.zero]
  rcases lt_trichotomy a (meanF f t) with h | h | h
  · have := h1 h
    refine ⟨⟨fun _ => h, fun _ => this⟩, ⟨fun h' => by linarith, fun h' => by linarith⟩, ⟨fun h' => by linarith, fun h' => by linarith⟩⟩
  · have := h3 h
    refine ⟨⟨fun h' => by linarith, fun h' => by linarith⟩, ⟨fun h' => by linarith, fun h' => by linarith⟩, ⟨fun _ => h, fun _ => this⟩⟩
  · have := h2 h
    refine ⟨⟨fun h' => by linarith, fun h' => by linarith⟩, ⟨fun _ => h, fun _ => this⟩, ⟨fun h' => by linarith, fun h' => by linarith⟩⟩

/-- The computed mean is near the exact one, in every order of summation: the error is the average size times a factor for the additions one
after the other. -/
theorem C250_mean (hr : Rounding f u) (h0 : 0 ≤ u) (h1 : u ≤ 1 / 100) (t : Order) (hk : ((t.depth + 1 : ℕ) : ℚ) * (51 / 50 * u) ≤ 1 / 2) :
    |meanF f t - t.leaves.sum / t.leaves.length| ≤ 51 / 25 * ((t.depth : ℚ) + 1) * u * ((t.leaves.map abs).sum / t.leaves.length) := by
  have hn : (0 : ℚ) < t.leaves.length := by exact_mod_cast leaves_pos t
  have h2 := meanF_err hr h0 h1 t
  have h3 := pow_small (by linarith : 0 ≤ 51 / 50 * u) _ hk
  have h4 : 0 ≤ (t.leaves.map abs).sum / t.leaves.length := div_nonneg (abs_sum_nonneg _) hn.le
  have h5 := mul_le_mul_of_nonneg_right h3 h4
  push_cast at h5
  linarith

example : |meanF single (three (single (19993 / 10))) - single (19993 / 10)| ≤ 1 / 1000 ∧ meanF single (three (single (19993 / 10))) ≠ single (19993 / 10) := by
  decide +kernel

/-- An element of the result differs from the exact quotient by the error of the mean over the denominator and a relative error. -/
theorem C250_shift (ha : Arith d f v u) (t : Order) {s a E : ℚ} (hs : 0 ≤ s) (hE : |meanF f t - t.leaves.sum / t.leaves.length| ≤ E) :
    |normAdvF d f t s a - (a - t.leaves.sum / t.leaves.length) / denomF d f s| ≤
      ((1 + 21 / 10 * u) * E + 21 / 10 * u * |a - t.leaves.sum / t.leaves.length|) / denomF d f s := by
  have hd := (C250_denominator ha hs).1
  have hu0 : 0 ≤ u := le_trans ha.pos ha.le
  have hu1 := ha.small
  have e1 := fl_err ha.el hu0 hu1 (a - meanF f t)
  have e2 := fl_err ha.el hu0 hu1 (f (a - meanF f t) / denomF d f s)
  unfold normAdvF
  generalize denomF d f s = D at *
  generalize t.leaves.sum / (t.leaves.length : ℚ) = m at *
  generalize meanF f t = m' at *
  generalize f (a - m') = y at *
  generalize f (y / D) = z at *
  have hE0 : 0 ≤ E := le_trans (abs_nonneg _) hE
  have hx : |a - m'| ≤ |a - m| + E := by
    have : a - m' = (a - m) + -(m' - m) := by ring
    rw [this]
    have := abs_add_le (a - m) (-(m' - m))
    rw [abs_neg] at this
    linarith
  have ux := mul_le_mul_of_nonneg_left hx hu0
  have hy : |y| ≤ 102 / 100 * (|a - m| + E) := by
    have h3 : y = (y - (a - m')) + (a - m') := by ring
    have h4 := abs_add_le (y - (a - m')) (a - m')
    rw [← h3] at h4
    have := abs_nonneg (a - m)
    nlinarith
  have hym : |y - (a - m)| ≤ E + 51 / 50 * u * (|a - m| + E) := by
    have h3 : y - (a - m) = (y - (a - m')) + -(m' - m) := by ring
    rw [h3]
    have h4 := abs_add_le (y - (a - m')) (-(m' - m))
    rw [abs_neg] at h4
    linarith
  have h5 : z - (a - m) / D = (z - y / D) + (y - (a - m)) / D := by ring
  rw [h5]
  have h6 := abs_add_le (z - y / D) ((y - (a - m)) / D)
  rw [abs_div, abs_of_pos hd] at h6
  rw [abs_div, abs_of_pos hd] at e2
  have h7 : 51 / 50 * u * (|y| / D) = (51 / 50 * u * |y|) / D := by ring
  rw [h7] at e2
  refine le_trans h6 (le_trans (add_le_add_left e2 _) ?_)
  rw [← add_div]
  refine div_le_div_of_nonneg_right ?_ hd.le
  have uy := mul_le_mul_of_nonneg_left hy hu0
  have ua := mul_nonneg hu0 (abs_nonneg (a - m))
  have ue := mul_nonneg hu0 hE0
  linarith

/-- So the average of the result is near 0: at most the error of the mean and the relative error of an average deviation, over the denominator. -/
theorem C250_average (ha : Arith d f v u) (t : Order) (l : List ℚ) (hl : l.Perm t.leaves) {s E : ℚ} (hs : 0 ≤ s)
    (hE : |meanF f t - t.leaves.sum / t.leaves.length| ≤ E) :
    |(normalizeF d f t s l).sum / l.length| ≤
      ((1 + 21 / 10 * u) * E + 21 / 10 * u * ((l.map fun a => |a - t.leaves.sum / t.leaves.length|).sum / l.length)) / denomF d f s := by
  have hd := (C250_denominator ha hs).1
  have hn : (0 : ℚ) < l.length := by rw [hl.length_eq]; exact_mod_cast leaves_pos t
  set m := t.leaves.sum / (t.leaves.length : ℚ) with hm
  have hm2 : l.sum = l.length * m := by
    rw [hm, hl.length_eq, hl.sum_eq, mul_div_cancel₀]
    rw [hl.length_eq] at hn
    exact hn.ne'
  have key : ∀ l : List ℚ, |((normalizeF d f t s l).sum) - (l.sum - l.length * m) / denomF d f s| ≤
      (l.length * ((1 + 21 / 10 * u) * E) + 21 / 10 * u * (l.map fun a => |a - m|).sum) / denomF d f s := by
    intro l
    induction l with
    | nil => simp [normalizeF]
    | cons a l ih =>
      have h1 := C250_shift ha t (a := a) hs hE
      rw [← hm] at h1
      simp only [normalizeF, List.map_cons, List.sum_cons, List.length_cons] at ih ⊢
      push_cast
      generalize (l.map (normAdvF d f t s)).sum = X at *
      generalize normAdvF d f t s a = z at *
      generalize (l.map fun a => |a - m|).sum = A at *
      have h2 : z + X - (a + l.sum - ((l.length : ℚ) + 1) * m) / denomF d f s =
          (z - (a - m) / denomF d f s) + (X - (l.sum - l.length * m) / denomF d f s) := by ring
      have h3 := abs_add_le (z - (a - m) / denomF d f s) (X - (l.sum - l.length * m) / denomF d f s)
      rw [h2]
      refine le_trans h3 (le_trans (add_le_add h1 ih) (le_of_eq ?_))
      ring
  have := key l
  rw [hm2, sub_self, zero_div, sub_zero] at this
  rw [abs_div, abs_of_pos hn]
  refine le_trans (div_le_div_of_nonneg_right this hn.le) (le_of_eq ?_)
  field_simp

/-- C250, the part that holds: equal advantages are normalised to zeros if the rounding keeps their multiples up to the size of the batch. -/
theorem C250_multiples_partial (ha : Arith d f v u) (t : Order) {c s : ℚ} (ht : ∀ x ∈ t.leaves, x = c)
    (hk : ∀ k : Nat, k ≤ t.leaves.length → f (k * c) = k * c) (hs : 0 ≤ s) : ∀ z ∈ normalizeF d f t s t.leaves, z = 0 := by
  have hn : (0 : ℚ) < t.leaves.length := by exact_mod_cast leaves_pos t
  have hc : f c = c := by simpa using hk 1 (leaves_pos t)
  have hm : meanF f t = c := by
    unfold meanF
    rw [sumF_multiples t ht hk, mul_div_cancel_left₀ _ hn.ne', hc]
  intro z hz
  simp only [normalizeF, List.mem_map] at hz
  obtain ⟨a, h1, rfl⟩ := hz
  rw [(C250_sign ha t hs).2.2, ht a h1, hm]

/-- In single precision: whole numbers whose sum is below `2 ^ 24`. -/
theorem C250_whole_partial (t : Order) {c : ℕ} {s : ℚ} (ht : ∀ x ∈ t.leaves, x = (c : ℚ)) (hc : t.leaves.length * c < 2 ^ 24) (hs : 0 ≤ s) :
    ∀ z ∈ normalizeF double single t s t.leaves, z = 0 := by
  refine C250_multiples_partial C244_precisions t ht ?_ hs
  intro k hk
  have : single ((k * c : ℕ) : ℚ) = ((k * c : ℕ) : ℚ) := single_int (lt_of_le_of_lt (Nat.mul_le_mul_right c hk) hc)
  push_cast at this
  exact this

example : normalizeF double single (three 7) 0 (three 7).leaves = [0, 0, 0] := by decide +kernel

/-- In single precision: any number, if the size of the batch is a power of 2 and the sum is formed pairwise; in particular two of them. -/
theorem C250_pairwise_partial (k : Nat) {c s : ℚ} (hc : single c = c) (hs : 0 ≤ s) :
    ∀ z ∈ normalizeF double single (pairwise c k) s (pairwise c k).leaves, z = 0 := by
  have hall : ∀ k, ∀ x ∈ (pairwise c k).leaves, x = c := by
    intro k
    induction k with
    | zero => simp [pairwise, Order.leaves]
    | succ k ih =>
      intro x hx
      simp only [pairwise, Order.leaves, List.mem_append, or_self] at hx
      exact ih x hx
  have hm : meanF single (pairwise c k) = c := by
    unfold meanF
    rw [pairwise_sum (f := single) (fun x => toNearest_two x) hc, pairwise_leaves]
    push_cast
    rw [mul_div_cancel_left₀ _ (by positivity), hc]
  intro z hz
  simp only [normalizeF, List.mem_map] at hz
  obtain ⟨a, h1, rfl⟩ := hz
  rw [(C250_sign C244_precisions _ hs).2.2, hall k a h1, hm]

example : normalizeF double single (pairwise (single (19993 / 10)) 2) 0 (pairwise (single (19993 / 10)) 2).leaves = [0, 0, 0, 0] := by decide +kernel

/-- A batch of usual size: advantages in `[-1, 1]` with a standard deviation of at least one tenth, at most 1000 additions one after the other; the average of the
normalised advantages is within one hundredth of 0. -/
theorem C250_thousand (t : Order) (hB : ∀ x ∈ t.leaves, |x| ≤ 1) (hk : t.depth ≤ 1000) {s : ℚ} (hs : 1 / 10 ≤ s) :
    |(normalizeF double single t s t.leaves).sum / t.leaves.length| ≤ 1 / 100 := by
  have hn : (0 : ℚ) < t.leaves.length := by exact_mod_cast leaves_pos t
  have hdk : (t.depth : ℚ) ≤ 1000 := by exact_mod_cast hk
  have hs0 : 0 ≤ s := by linarith
  have avg : ∀ (g : ℚ → ℚ) (b : ℚ), (∀ x ∈ t.leaves, g x ≤ b) → (t.leaves.map g).sum / t.leaves.length ≤ b := by
    intro g b hg
    rw [div_le_iff₀ hn]
    have : ∀ l : List ℚ, (∀ x ∈ l, g x ≤ b) → (l.map g).sum ≤ b * l.length := by
      intro l
      induction l with
      | nil => simp
      | cons x l ih =>
        intro h
        have h1 := h x (by simp)
        have h2 := ih (fun y hy => h y (by simp [hy]))
        simp only [List.map_cons, List.sum_cons, List.length_cons]
        push_cast
        linarith
    exact this _ hg
  have hA := avg abs 1 hB
  have hA0 : 0 ≤ (t.leaves.map abs).sum / t.leaves.length := div_nonneg (abs_sum_nonneg _) hn.le
  have h1 := C250_mean C244_precisions.el (by norm_num) (by norm_num) t (by push_cast; norm_num; linarith)
  have hE : |meanF single t - t.leaves.sum / t.leaves.length| ≤ 1 / 8000 := by
    have h3 := mul_le_mul_of_nonneg_right hdk hA0
    generalize (t.leaves.map abs).sum / (t.leaves.length : ℚ) = A at *
    generalize |meanF single t - t.leaves.sum / (t.leaves.length : ℚ)| = x at *
    norm_num at h1
    linarith
  have h2 := C250_average C244_precisions t t.leaves (List.Perm.refl _) hs0 hE
  have hm : |t.leaves.sum / (t.leaves.length : ℚ)| ≤ 1 := by
    rw [abs_div, abs_of_pos hn]
    exact le_trans (div_le_div_of_nonneg_right (abs_sum _) hn.le) hA
  have hdev := avg (fun a => |a - t.leaves.sum / (t.leaves.length : ℚ)|) 2 (by
    intro x hx
    have := abs_sub x (t.leaves.sum / (t.leaves.length : ℚ))
    have := hB x hx
    linarith)
  have hD := (abs_le.1 (C250_denominator_error C244_precisions hs0)).1
  have hD2 : 1 / 20 ≤ denomF double single s := by
    norm_num at hD
    linarith
  refine le_trans h2 ?_
  rw [div_le_iff₀ (by linarith)]
  generalize (List.map (fun a => |a - t.leaves.sum / (t.leaves.length : ℚ)|) t.leaves).sum / (t.leaves.length : ℚ) = A at *
  linarith

example : |(normalizeF double single (.node (.leaf (1 / 2)) (.leaf (-1 / 4))) (1 / 2) [1 / 2, -1 / 4]).sum / 2| ≤ 1 / 100 :=
  C250_thousand (.node (.leaf (1 / 2)) (.leaf (-1 / 4))) (by simp [Order.leaves, abs_le]; norm_num) (by decide) (by norm_num)

/-- Without rounding the order of summation does not matter and the result is the exact one. -/
theorem C250_exact (t : Order) (s : ℚ) (l : List ℚ) :
    normalizeF id id t s l = l.map fun a => (a - t.leaves.sum / t.leaves.length) / (s + 1 / 1000000) := by
  have : ∀ t : Order, t.sumF id = t.leaves.sum := by
    intro t
    induction t with
    | leaf x => simp [Order.sumF, Order.leaves]
    | node l r ihl ihr => simp [Order.sumF, Order.leaves, ihl, ihr]
  simp [normalizeF, normAdvF, meanF, denomF, this]

end Machin.Precision
