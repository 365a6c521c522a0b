import Verif.Batch.Model
import Mathlib.Algebra.BigOperators.Group.List.Basic
import Mathlib.Tactic.Ring
import Mathlib.Tactic.Linarith

/-! # Lemmas about concatenation and broadcasting -/

namespace Machin.Batch

theorem tensors_map {α : Type} (ts : List (Tensor α)) : tensors (ts.map Item.tensor) = .ok ts := by
  induction ts with
  | nil => rfl
  | cons t ts ih => simp [tensors, ih]

theorem allEntries_scalars {α : Type} (l : List (Item α)) (as : List α)
    (h : List.Forall₂ (fun x a => entriesFor [] x = some [a]) l as) : allEntries [] l = some as := by
  induction h with
  | nil => rfl
  | cons h _ ih => simp [allEntries, h, ih]

/-- The entries of parts of equal length one after the other: part `k` is found at `k` times the length. -/
theorem slice_flatMap {β α : Type} (f : β → List α) (p : Nat) : ∀ (l : List β) (w : β → Nat), (∀ x ∈ l, (f x).length = w x * p) →
    ∀ (k : Nat) (x : β), l[k]? = some x → ∀ j < w x,
      ((l.flatMap f).drop ((((l.take k).map w).sum + j) * p)).take p = ((f x).drop (j * p)).take p := by
  intro l
  induction l with
  | nil => intro w _ k x h; simp at h
  | cons y l ih =>
    intro w hl k x hk j hj
    cases k with
    | zero =>
      obtain rfl : y = x := by simpa using hk
      have hlen := hl y (by simp)
      have hle : (j + 1) * p ≤ (f y).length := by rw [hlen]; exact Nat.mul_le_mul_right p hj
      have hle' : j * p + p ≤ (f y).length := by rw [Nat.add_mul, Nat.one_mul] at hle; exact hle
      rw [List.flatMap_cons, List.take_zero]
      simp only [List.map_nil, List.sum_nil, Nat.zero_add]
      rw [List.drop_append_of_le_length (by omega), List.take_append_of_le_length (by rw [List.length_drop]; omega)]
    | succ k =>
      rw [List.getElem?_cons_succ] at hk
      have := ih w (fun x hx => hl x (by simp [hx])) k x hk j hj
      rw [List.flatMap_cons, List.take_succ_cons, List.map_cons, List.sum_cons, ← this]
      have e : (w y + ((l.take k).map w).sum + j) * p = (f y).length + (((l.take k).map w).sum + j) * p := by
        rw [hl y (by simp), Nat.add_assoc, Nat.add_mul]
      rw [e, ← List.drop_drop, List.drop_left]

theorem sum_map_const_one {α : Type} (l : List α) (f : α → Nat) (h : ∀ x ∈ l, f x = 1) : (l.map f).sum = l.length := by
  induction l with
  | nil => rfl
  | cons x l ih => rw [List.map_cons, List.sum_cons, h x (by simp), ih fun y hy => h y (by simp [hy]), List.length_cons]; omega

/-- The sum of squared distances is least at the average. -/
theorem sum_sq (y : Nat → ℚ) (n : Nat) (hn : 0 < n) (a : ℚ) :
    ((List.range n).map fun j => (a - y j) ^ 2).sum =
      ((List.range n).map fun j => (((List.range n).map y).sum / n - y j) ^ 2).sum + n * (a - ((List.range n).map y).sum / n) ^ 2 := by
  have gen : ∀ (m : ℚ) (k : Nat), ((List.range k).map fun j => (a - y j) ^ 2).sum =
      ((List.range k).map fun j => (m - y j) ^ 2).sum + k * (a ^ 2 - m ^ 2) - 2 * (a - m) * ((List.range k).map y).sum := by
    intro m k
    induction k with
    | zero => simp
    | succ k ih =>
      simp only [List.range_succ, List.map_append, List.map_cons, List.map_nil, List.sum_append, List.sum_cons, List.sum_nil]
      rw [ih]
      push_cast
      ring
  have hn' : (n : ℚ) ≠ 0 := by exact_mod_cast (by omega : n ≠ 0)
  rw [gen (((List.range n).map y).sum / n) n]
  generalize ((List.range n).map y).sum = s
  have : s = n * (s / n) := by rw [mul_div_cancel₀ _ hn']
  generalize s / n = m at this ⊢
  subst this
  ring

end Machin.Batch
