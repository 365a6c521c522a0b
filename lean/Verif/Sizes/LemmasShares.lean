import Verif.Sizes.Model
import Verif.Sizes.Spec
import Mathlib.Algebra.Order.BigOperators.Group.List
import Mathlib.Algebra.Order.Floor.Ring
import Mathlib.Data.Rat.Floor
import Mathlib.Tactic.Linarith
import Mathlib.Tactic.Ring
import Mathlib.Tactic.FieldSimp
import Mathlib.Tactic.Positivity

/-! # Lemmas for C243: the shares of the members -/

namespace Machin.Sizes

open Spec Prio.Spec

section
variable {fl : ℚ → ℚ} {u : ℚ} (hf : Rounding fl u) (hu0 : 0 ≤ u) (hu1 : u < 1)
include hf hu0 hu1

omit hu0 hu1 in
theorem fl_nonneg {x : ℚ} (hx : 0 ≤ x) : 0 ≤ fl x := by
  have := hf.mono 0 x hx
  rwa [hf.zero] at this

/-- Both directions of the error, as factors. -/
theorem fl_bounds {x : ℚ} (hx : 0 ≤ x) : (1 - u) * x ≤ fl x ∧ (1 - u) * fl x ≤ x := by
  have h0 := fl_nonneg hf hx
  have he := hf.err x
  rw [abs_of_nonneg h0] at he
  obtain ⟨h1, h2⟩ := abs_le.1 he
  refine ⟨?_, by linarith⟩
  have h3 : x ≤ (1 + u) * fl x := by linarith
  have h4 : (1 - u) * x ≤ (1 - u) * ((1 + u) * fl x) := mul_le_mul_of_nonneg_left h3 (by linarith)
  have h5 : (1 - u) * ((1 + u) * fl x) = fl x - u * u * fl x := by ring
  have h6 : 0 ≤ u * u * fl x := by positivity
  linarith

theorem fl_pos {x : ℚ} (hx : 0 < x) : 0 < fl x := by
  have h := (fl_bounds hf hu0 hu1 hx.le).1
  have : 0 < (1 - u) * x := mul_pos (by linarith) hx
  linarith

/-- The sum is at least what was there and at least each weight. -/
theorem sumF_ge (ws : List ℚ) : ∀ acc, 0 ≤ acc → fl acc = acc → Weights fl ws →
    acc ≤ sumF fl acc ws ∧ (∀ w ∈ ws, w ≤ sumF fl acc ws) ∧ fl (sumF fl acc ws) = sumF fl acc ws := by
  induction ws with
  | nil => intro acc _ hk _; exact ⟨le_refl _, by simp, hk⟩
  | cons w ws ih =>
    intro acc ha hk hw
    obtain ⟨hw0, hwk⟩ := hw w List.mem_cons_self
    have h1 : acc ≤ fl (acc + w) := by
      have := hf.mono acc (acc + w) (by linarith)
      rwa [hk] at this
    have h2 : w ≤ fl (acc + w) := by
      have := hf.mono w (acc + w) (by linarith)
      rwa [hwk] at this
    obtain ⟨i1, i2, i3⟩ := ih (fl (acc + w)) (by linarith) (hf.idem _) (fun x hx => hw x (List.mem_cons_of_mem _ hx))
    refine ⟨le_trans h1 i1, fun x hx => ?_, i3⟩
    rcases List.mem_cons.1 hx with rfl | hx
    · exact le_trans h2 i1
    · exact i2 x hx

/-- The sum is near the exact one. -/
theorem sumF_near (ws : List ℚ) : ∀ acc, 0 ≤ acc → Weights fl ws →
    (1 - u) ^ ws.length * (acc + ws.sum) ≤ sumF fl acc ws ∧ (1 - u) ^ ws.length * sumF fl acc ws ≤ acc + ws.sum := by
  induction ws with
  | nil => intro acc _ _; simp [sumF]
  | cons w ws ih =>
    intro acc ha hw
    obtain ⟨hw0, _⟩ := hw w List.mem_cons_self
    have hws : ∀ x ∈ ws, 0 ≤ x := fun x hx => (hw x (List.mem_cons_of_mem _ hx)).1
    have hs : 0 ≤ ws.sum := List.sum_nonneg hws
    have hp : (0 : ℚ) ≤ (1 - u) ^ ws.length := pow_nonneg (by linarith) _
    obtain ⟨b1, b2⟩ := fl_bounds hf hu0 hu1 (x := acc + w) (by linarith)
    obtain ⟨i1, i2⟩ := ih (fl (acc + w)) (fl_nonneg hf (by linarith)) (fun x hx => hw x (List.mem_cons_of_mem _ hx))
    simp only [List.length_cons, List.sum_cons, sumF]
    constructor
    · have : (1 - u) ^ (ws.length + 1) * (acc + (w + ws.sum)) = (1 - u) ^ ws.length * ((1 - u) * (acc + w) + (1 - u) * ws.sum) := by ring
      rw [this]
      refine le_trans (mul_le_mul_of_nonneg_left ?_ hp) i1
      have : (1 - u) * ws.sum ≤ ws.sum := by nlinarith
      linarith
    · have : (1 - u) ^ (ws.length + 1) * sumF fl (fl (acc + w)) ws = (1 - u) * ((1 - u) ^ ws.length * sumF fl (fl (acc + w)) ws) := by ring
      rw [this]
      refine le_trans (mul_le_mul_of_nonneg_left i2 (by linarith)) ?_
      have : (1 - u) * ws.sum ≤ ws.sum := by nlinarith
      have e : (1 - u) * (fl (acc + w) + ws.sum) = (1 - u) * fl (acc + w) + (1 - u) * ws.sum := by ring
      linarith

theorem allSum_spec (ws : List ℚ) (hw : Weights fl ws) :
    0 < allSum fl ws ∧ (∀ w ∈ ws, w ≤ allSum fl ws) ∧ (1 - u) ^ (ws.length + 1) * ws.sum ≤ allSum fl ws ∧
      (1 - u) ^ (ws.length + 2) * allSum fl ws ≤ ws.sum + 1 / 1000000 := by
  have hs : 0 ≤ ws.sum := List.sum_nonneg fun x hx => (hw x hx).1
  obtain ⟨g1, g2, g3⟩ := sumF_ge hf hu0 hu1 ws 0 (le_refl _) hf.zero hw
  obtain ⟨n1, n2⟩ := sumF_near hf hu0 hu1 ws 0 (le_refl _) hw
  rw [zero_add] at n1 n2
  have he := fl_pos hf hu0 hu1 (x := 1 / 1000000) (by norm_num)
  have hb := (fl_bounds hf hu0 hu1 (x := 1 / 1000000) (by norm_num)).2
  obtain ⟨c1, c2⟩ := fl_bounds hf hu0 hu1 (x := sumF fl 0 ws + fl (1 / 1000000)) (by linarith)
  have hp : (0 : ℚ) ≤ (1 - u) ^ ws.length := pow_nonneg (by linarith) _
  have hp1 : (1 - u) ^ ws.length ≤ 1 := pow_le_one₀ (by linarith) (by linarith)
  have hge : sumF fl 0 ws ≤ allSum fl ws := by
    have := hf.mono (sumF fl 0 ws) (sumF fl 0 ws + fl (1 / 1000000)) (by linarith)
    rw [g3] at this
    exact this
  refine ⟨fl_pos hf hu0 hu1 (by linarith), fun w hx => le_trans (g2 w hx) hge, ?_, ?_⟩
  · have : (1 - u) ^ (ws.length + 1) * ws.sum = (1 - u) * ((1 - u) ^ ws.length * ws.sum) := by ring
    rw [this]
    have h2 : (1 - u) * ((1 - u) ^ ws.length * ws.sum) ≤ (1 - u) ^ ws.length * ws.sum := by
      have : 0 ≤ (1 - u) ^ ws.length * ws.sum := mul_nonneg hp hs
      nlinarith
    linarith
  · have e : (1 - u) ^ (ws.length + 2) * allSum fl ws = (1 - u) * (1 - u) ^ ws.length * ((1 - u) * allSum fl ws) := by ring
    rw [e]
    have hq : 0 ≤ (1 - u) * (1 - u) ^ ws.length := mul_nonneg (by linarith) hp
    refine le_trans (mul_le_mul_of_nonneg_left c2 hq) ?_
    have e2 : (1 - u) * (1 - u) ^ ws.length * (sumF fl 0 ws + fl (1 / 1000000)) =
        (1 - u) * ((1 - u) ^ ws.length * sumF fl 0 ws) + (1 - u) ^ ws.length * ((1 - u) * fl (1 / 1000000)) := by ring
    rw [e2]
    have h3 : (1 - u) * ((1 - u) ^ ws.length * sumF fl 0 ws) ≤ ws.sum := by
      have : (1 - u) * ((1 - u) ^ ws.length * sumF fl 0 ws) ≤ (1 - u) * ws.sum := mul_le_mul_of_nonneg_left n2 (by linarith)
      nlinarith
    have h4 : (1 - u) ^ ws.length * ((1 - u) * fl (1 / 1000000)) ≤ 1 / 1000000 := by
      have h5 : 0 ≤ (1 - u) * fl (1 / 1000000) := mul_nonneg (by linarith) he.le
      have : (1 - u) ^ ws.length * ((1 - u) * fl (1 / 1000000)) ≤ 1 * ((1 - u) * fl (1 / 1000000)) := mul_le_mul_of_nonneg_right hp1 h5
      linarith
    linarith

/-- The quotient before it is rounded up. -/
theorem quot_bounds {w S : ℚ} (hw : 0 ≤ w) (hS : 0 < S) (B : Nat) :
    (1 - u) ^ 2 * (w * B / S) ≤ fl (fl (w * B) / S) ∧ (1 - u) ^ 2 * fl (fl (w * B) / S) ≤ w * B / S := by
  have hx : 0 ≤ w * B := by positivity
  obtain ⟨a1, a2⟩ := fl_bounds hf hu0 hu1 hx
  have hy : 0 ≤ fl (w * B) / S := div_nonneg (fl_nonneg hf hx) hS.le
  obtain ⟨b1, b2⟩ := fl_bounds hf hu0 hu1 hy
  have h1 : 0 ≤ 1 - u := by linarith
  constructor
  · refine le_trans ?_ b1
    have : (1 - u) ^ 2 * (w * B / S) = (1 - u) * ((1 - u) * (w * B) / S) := by ring
    rw [this]
    exact mul_le_mul_of_nonneg_left ((div_le_div_iff_of_pos_right hS).2 a1) h1
  · have : (1 - u) ^ 2 * fl (fl (w * B) / S) = (1 - u) * ((1 - u) * fl (fl (w * B) / S)) := by ring
    rw [this]
    refine le_trans (mul_le_mul_of_nonneg_left b2 h1) ?_
    rw [← mul_div_assoc]
    exact (div_le_div_iff_of_pos_right hS).2 a2

/-- Up to batch sizes whose reciprocal is well above the error, the quotient is off by less than one. -/
theorem quot_near {w S : ℚ} (hw : 0 ≤ w) (hS : 0 < S) (hwS : w ≤ S) (B : Nat) (hB : 4 * u * B < 1) (hu4 : u ≤ 1 / 8) :
    |fl (fl (w * B) / S) - w * B / S| < 1 := by
  obtain ⟨a1, a2⟩ := quot_bounds hf hu0 hu1 hw hS B
  set q := fl (fl (w * B) / S) with hq
  set e := w * B / S with he
  have he0 : 0 ≤ e := by positivity
  have heB : e ≤ B := by
    rw [he, div_le_iff₀ hS]
    have : (0 : ℚ) ≤ B := by positivity
    nlinarith
  have hB0 : (0 : ℚ) ≤ B := by positivity
  have h2u : 2 * u * e ≤ 2 * u * B := mul_le_mul_of_nonneg_left heB (by linarith)
  have huu : 0 ≤ u * u * e := by positivity
  have hq0 : 0 ≤ q := by
    have : 0 ≤ (1 - u) ^ 2 * e := by positivity
    linarith
  have hqe : q ≤ 2 * e := by
    have : (1 - u) ^ 2 * q ≥ 1 / 2 * q := by
      have : (1 - u) ^ 2 ≥ 1 / 2 := by nlinarith
      exact mul_le_mul_of_nonneg_right this hq0
    linarith
  have huq : 2 * u * q ≤ 2 * u * (2 * B) := mul_le_mul_of_nonneg_left (by linarith) (by linarith)
  have huuq : 0 ≤ u * u * q := by positivity
  rw [abs_lt]
  constructor
  · have : (1 - u) ^ 2 * e = e - 2 * u * e + u * u * e := by ring
    linarith
  · have : (1 - u) ^ 2 * q = q - 2 * u * q + u * u * q := by ring
    linarith

end

theorem ceil_near {x y : ℚ} (h : |x - y| < 1) : |⌈x⌉ - ⌈y⌉| ≤ 1 := by
  obtain ⟨h1, h2⟩ := abs_lt.1 h
  have a : ⌈x⌉ ≤ ⌈y⌉ + 1 := by
    rw [Int.ceil_le]
    push_cast
    have := Int.le_ceil y
    linarith
  have b : ⌈y⌉ ≤ ⌈x⌉ + 1 := by
    rw [Int.ceil_le]
    push_cast
    have := Int.le_ceil x
    linarith
  rw [abs_le]
  omega

theorem sum_ceil_ge (l : List ℚ) (f : ℚ → ℚ) : (l.map f).sum ≤ (((l.map fun w => ⌈f w⌉).sum : Int) : ℚ) := by
  induction l with
  | nil => simp
  | cons a l ih =>
    simp only [List.map_cons, List.sum_cons, Int.cast_add]
    have := Int.le_ceil (f a)
    linarith

theorem sum_ceil_le (l : List ℚ) (f : ℚ → ℚ) : (((l.map fun w => ⌈f w⌉).sum : Int) : ℚ) ≤ (l.map f).sum + l.length := by
  induction l with
  | nil => simp
  | cons a l ih =>
    simp only [List.map_cons, List.sum_cons, List.length_cons, Int.cast_add, Nat.cast_add, Nat.cast_one]
    have := Int.ceil_lt_add_one (f a)
    linarith

end Machin.Sizes
