import Verif.Precision.Advantage
import Verif.Precision.Lemmas
import Verif.Sizes.Lemmas

/-! # Lemmas on the normalisation of advantages in floating point -/

namespace Machin.Precision

open Machin.Prio Machin.Prio.Spec Machin.Project Machin.Project.Spec

variable {f : ℚ → ℚ} {u : ℚ}

theorem leaves_pos (t : Order) : 0 < t.leaves.length := by
  induction t with
  | leaf x => simp [Order.leaves]
  | node l r ihl ihr => simp only [Order.leaves, List.length_append]; omega

theorem abs_sum (l : List ℚ) : |l.sum| ≤ (l.map abs).sum := by
  induction l with
  | nil => simp
  | cons x xs ih =>
    simp only [List.sum_cons, List.map_cons]
    have := abs_add_le x xs.sum
    linarith

theorem abs_sum_nonneg (l : List ℚ) : 0 ≤ (l.map abs).sum := le_trans (abs_nonneg _) (abs_sum l)

/-- The error of a sum in any order: every element takes part in at most `depth` roundings. -/
theorem sumF_err (hr : Rounding f u) (h0 : 0 ≤ u) (h1 : u ≤ 1 / 100) (t : Order) :
    |t.sumF f - t.leaves.sum| ≤ ((1 + 51 / 50 * u) ^ t.depth - 1) * (t.leaves.map abs).sum := by
  have hw : 0 ≤ 51 / 50 * u := by linarith
  induction t with
  | leaf x => simp [Order.sumF, Order.leaves, Order.depth]
  | node l r ihl ihr =>
    simp only [Order.sumF, Order.leaves, Order.depth, List.sum_append, List.map_append]
    have e := fl_err hr h0 h1 (l.sumF f + r.sumF f)
    have pl : (1 + 51 / 50 * u) ^ l.depth ≤ (1 + 51 / 50 * u) ^ max l.depth r.depth := pow_le_pow_right₀ (by linarith) (le_max_left _ _)
    have pr : (1 + 51 / 50 * u) ^ r.depth ≤ (1 + 51 / 50 * u) ^ max l.depth r.depth := pow_le_pow_right₀ (by linarith) (le_max_right _ _)
    have al := abs_sum_nonneg l.leaves
    have ar := abs_sum_nonneg r.leaves
    have bl := abs_sum l.leaves
    have br := abs_sum r.leaves
    rw [pow_succ]
    generalize (1 + 51 / 50 * u) ^ max l.depth r.depth = P at *
    generalize (1 + 51 / 50 * u) ^ l.depth = Pl at *
    generalize (1 + 51 / 50 * u) ^ r.depth = Pr at *
    generalize (l.leaves.map abs).sum = Al at *
    generalize (r.leaves.map abs).sum = Ar at *
    generalize l.leaves.sum = sl at *
    generalize r.leaves.sum = sr at *
    generalize l.sumF f = x at *
    generalize r.sumF f = y at *
    generalize f (x + y) = z at *
    have ml := mul_le_mul_of_nonneg_right pl al
    have mr := mul_le_mul_of_nonneg_right pr ar
    have hd : |x + y - (sl + sr)| ≤ (P - 1) * (Al + Ar) := by
      have : x + y - (sl + sr) = (x - sl) + (y - sr) := by ring
      rw [this]
      have := abs_add_le (x - sl) (y - sr)
      linarith
    have hs : |x + y| ≤ P * (Al + Ar) := by
      have h3 : x + y = (x + y - (sl + sr)) + (sl + sr) := by ring
      have h4 := abs_add_le (x + y - (sl + sr)) (sl + sr)
      rw [← h3] at h4
      have h5 := abs_add_le sl sr
      linarith
    have hm := mul_le_mul_of_nonneg_left hs hw
    have h6 : z - (sl + sr) = (z - (x + y)) + (x + y - (sl + sr)) := by ring
    rw [h6]
    have := abs_add_le (z - (x + y)) (x + y - (sl + sr))
    linarith

/-- The error of the mean. -/
theorem meanF_err (hr : Rounding f u) (h0 : 0 ≤ u) (h1 : u ≤ 1 / 100) (t : Order) :
    |meanF f t - t.leaves.sum / t.leaves.length| ≤ ((1 + 51 / 50 * u) ^ (t.depth + 1) - 1) * ((t.leaves.map abs).sum / t.leaves.length) := by
  have hw : 0 ≤ 51 / 50 * u := by linarith
  have hn : (0 : ℚ) < t.leaves.length := by exact_mod_cast leaves_pos t
  have e := sumF_err hr h0 h1 t
  have e2 := fl_err hr h0 h1 (t.sumF f / t.leaves.length)
  have b := abs_sum t.leaves
  unfold meanF
  rw [pow_succ]
  generalize (1 + 51 / 50 * u) ^ t.depth = P at *
  generalize (t.leaves.map abs).sum = A at *
  generalize t.leaves.sum = s at *
  generalize t.sumF f = x at *
  generalize (t.leaves.length : ℚ) = n at *
  generalize f (x / n) = z at *
  have hd : |x / n - s / n| ≤ (P - 1) * (A / n) := by
    rw [← sub_div, abs_div, abs_of_pos hn, ← mul_div_assoc]
    exact div_le_div_of_nonneg_right e hn.le
  have hs : |x / n| ≤ P * (A / n) := by
    rw [abs_div, abs_of_pos hn, ← mul_div_assoc]
    refine div_le_div_of_nonneg_right ?_ hn.le
    have h3 : x = (x - s) + s := by ring
    have h4 := abs_add_le (x - s) s
    rw [← h3] at h4
    linarith
  have hm := mul_le_mul_of_nonneg_left hs hw
  have h6 : z - s / n = (z - x / n) + (x / n - s / n) := by ring
  rw [h6]
  have := abs_add_le (z - x / n) (x / n - s / n)
  linarith

/-- Small powers. -/
theorem pow_small {w : ℚ} (hw : 0 ≤ w) (k : Nat) (h : (k : ℚ) * w ≤ 1 / 2) : (1 + w) ^ k - 1 ≤ 2 * (k * w) := by
  have key : ∀ k : Nat, (1 + w) ^ k * (1 - k * w) ≤ 1 := by
    intro k
    induction k with
    | zero => simp
    | succ k ih =>
      have hp : 0 ≤ (1 + w) ^ k := pow_nonneg (by linarith) k
      have hk : (0 : ℚ) ≤ k := Nat.cast_nonneg k
      have : (1 + w) * (1 - ((k : ℚ) + 1) * w) ≤ 1 - k * w := by nlinarith [mul_nonneg hw hw, mul_nonneg hk (mul_nonneg hw hw)]
      have := mul_le_mul_of_nonneg_left this hp
      push_cast
      rw [pow_succ]
      linarith
  have := key k
  have hk : 0 ≤ (k : ℚ) * w := mul_nonneg (Nat.cast_nonneg k) hw
  generalize (k : ℚ) * w = q at *
  generalize (1 + w) ^ k = P at *
  nlinarith

/-- Elements that are all the same and whose multiples are kept are added without an error. -/
theorem sumF_multiples {c : ℚ} (t : Order) (ht : ∀ x ∈ t.leaves, x = c) (hk : ∀ k : Nat, k ≤ t.leaves.length → f (k * c) = k * c) :
    t.sumF f = t.leaves.length * c := by
  induction t with
  | leaf x => simp only [Order.leaves, List.mem_singleton, forall_eq] at ht; simp [Order.sumF, Order.leaves, ht]
  | node l r ihl ihr =>
    simp only [Order.leaves, List.mem_append, List.length_append] at ht hk
    have hl := ihl (fun x hx => ht x (Or.inl hx)) (fun k h => hk k (by omega))
    have hr := ihr (fun x hx => ht x (Or.inr hx)) (fun k h => hk k (by omega))
    have := hk (l.leaves.length + r.leaves.length) le_rfl
    push_cast at this
    simp only [Order.sumF, Order.leaves, List.length_append, hl, hr]
    push_cast
    rw [← add_mul, this]

/-- The pairwise sum of `2 ^ k` equal elements. -/
def pairwise (c : ℚ) : Nat → Order
  | 0 => .leaf c
  | k + 1 => .node (pairwise c k) (pairwise c k)

theorem pairwise_leaves (c : ℚ) (k : Nat) : (pairwise c k).leaves.length = 2 ^ k := by
  induction k with
  | zero => rfl
  | succ k ih => simp only [pairwise, Order.leaves, List.length_append, ih]; omega

theorem pairwise_sum {c : ℚ} (h2 : ∀ x, f (2 * x) = 2 * f x) (hc : f c = c) (k : Nat) : (pairwise c k).sumF f = 2 ^ k * c := by
  have hk : ∀ k : Nat, f (2 ^ k * c) = 2 ^ k * c := by
    intro k
    induction k with
    | zero => simpa using hc
    | succ k ih => rw [pow_succ, mul_comm ((2 : ℚ) ^ k), mul_assoc, h2, ih]
  induction k with
  | zero => simp [pairwise, Order.sumF]
  | succ k ih =>
    simp only [pairwise, Order.sumF, ih]
    rw [← hk (k + 1)]
    congr 1
    ring

/-- Rounding to a number of binary digits commutes with doubling. -/
theorem toNearest_two {p : Nat} (x : ℚ) : toNearest p (2 * x) = 2 * toNearest p x := by
  have pos : ∀ x : ℚ, 0 < x → nearest p (2 * x) = 2 * nearest p x := by
    intro x hx
    obtain ⟨h1, h2⟩ := expo_spec hx
    have he : expo (2 * x) = expo x + 1 := by
      refine expo_unique ?_ ?_
      · rw [two_succ]; linarith
      · rw [two_succ]; linarith
    have hs : (2 : ℚ) ^ (expo x + 1 - p + 1) = 2 * 2 ^ (expo x - p + 1) := by
      rw [← two_succ]; congr 1; ring
    unfold nearest
    rw [he, pow2_eq, pow2_eq, hs, mul_div_mul_left _ _ (by norm_num)]
    ring
  rcases lt_trichotomy x 0 with h | h | h
  · rw [toNearest_neg h, toNearest_neg (by linarith), ← mul_neg, pos _ (by linarith)]
    ring
  · simp [h, toNearest]
  · rw [toNearest_pos h, toNearest_pos (by linarith), pos _ h]

theorem single_int {k : Nat} (hk : k < 2 ^ 24) : single (k : ℚ) = k := by
  rcases Nat.eq_zero_or_pos k with h | h
  · subst h
    simp [single, toNearest]
  · rw [single, toNearest_pos (by exact_mod_cast h)]
    exact Sizes.nearest_int (by norm_num) h hk

end Machin.Precision
