import Verif.Media.Show
import Mathlib.Tactic.Linarith
import Mathlib.Tactic.FieldSimp
import Mathlib.Tactic.Ring
import Mathlib.Tactic.Positivity

/-! # Lemmas about showing pictures -/

namespace Machin.Media

theorem foldl_min_spec (l : List ℚ) : ∀ x, (l.foldl min x ∈ x :: l) ∧ ∀ y ∈ x :: l, l.foldl min x ≤ y := by
  induction l with
  | nil => intro x; simp
  | cons a l ih =>
    intro x
    obtain ⟨h1, h2⟩ := ih (min x a)
    rw [List.foldl_cons]
    have hm := h2 (min x a) (by simp)
    constructor
    · rcases List.mem_cons.1 h1 with h | h
      · rw [h]
        rcases min_choice x a with h | h <;> simp [h]
      · simp [h]
    · intro y hy
      rcases List.mem_cons.1 hy with rfl | hy
      · exact hm.trans (min_le_left _ _)
      · rcases List.mem_cons.1 hy with rfl | hy
        · exact hm.trans (min_le_right _ _)
        · exact h2 y (by simp [hy])

theorem foldl_max_spec (l : List ℚ) : ∀ x, (l.foldl max x ∈ x :: l) ∧ ∀ y ∈ x :: l, y ≤ l.foldl max x := by
  induction l with
  | nil => intro x; simp
  | cons a l ih =>
    intro x
    obtain ⟨h1, h2⟩ := ih (max x a)
    rw [List.foldl_cons]
    have hm := h2 (max x a) (by simp)
    constructor
    · rcases List.mem_cons.1 h1 with h | h
      · rw [h]
        rcases max_choice x a with h | h <;> simp [h]
      · simp [h]
    · intro y hy
      rcases List.mem_cons.1 hy with rfl | hy
      · exact (le_max_left _ _).trans hm
      · rcases List.mem_cons.1 hy with rfl | hy
        · exact (le_max_right _ _).trans hm
        · exact h2 y (by simp [hy])

/-- The darkest and the brightest number of a list. -/
def Bounds (l : List ℚ) (lo hi : ℚ) : Prop := lo ∈ l ∧ hi ∈ l ∧ ∀ x ∈ l, lo ≤ x ∧ x ≤ hi

theorem bounds_unique {l : List ℚ} {lo hi lo' hi' : ℚ} (h : Bounds l lo hi) (h' : Bounds l lo' hi') : lo = lo' ∧ hi = hi' :=
  ⟨le_antisymm (h.2.2 _ h'.1).1 (h'.2.2 _ h.1).1, le_antisymm (h'.2.2 _ h.2.1).2 (h.2.2 _ h'.2.1).2⟩

theorem minmax_exists (l : List ℚ) (hl : l ≠ []) : ∃ lo hi, npMin l = .ok lo ∧ npMax l = .ok hi ∧ Bounds l lo hi := by
  cases l with
  | nil => exact absurd rfl hl
  | cons x l => exact ⟨_, _, rfl, rfl, (foldl_min_spec l x).1, (foldl_max_spec l x).1, fun y hy => ⟨(foldl_min_spec l x).2 y hy, (foldl_max_spec l x).2 y hy⟩⟩

theorem minmax_of_bounds {l : List ℚ} {lo hi : ℚ} (h : Bounds l lo hi) : npMin l = .ok lo ∧ npMax l = .ok hi := by
  obtain ⟨lo', hi', h1, h2, h3⟩ := minmax_exists l (List.ne_nil_of_mem h.1)
  obtain ⟨rfl, rfl⟩ := bounds_unique h h3
  exact ⟨h1, h2⟩

theorem clip01_of {x : ℚ} (h0 : 0 ≤ x) (h1 : x ≤ 1) : clip01 x = x := by
  unfold clip01
  rw [min_eq_right h1, max_eq_right h0]

/-- What `show_image` shows, by the bounds of the picture. -/
theorem showImage_eq (eps : ℚ) (p : Pic) (lo hi : ℚ) (h : Bounds p.floats lo hi) (b : Bool) :
    showImage eps p b = .ok (imshow p.colour lo hi p.floats ::
      if b then [imshow p.colour 0 1 (p.floats.map fun x => (x - lo) / (hi - lo + eps))] else []) := by
  obtain ⟨h1, h2⟩ := minmax_of_bounds h
  unfold showImage
  simp only [h1, h2]
  cases b <;> rfl

theorem second_range {l : List ℚ} {lo hi eps : ℚ} (he : 0 < eps) (h : Bounds l lo hi) {x : ℚ} (hx : x ∈ l) :
    0 ≤ (x - lo) / (hi - lo + eps) ∧ (x - lo) / (hi - lo + eps) < 1 := by
  obtain ⟨h1, h2⟩ := h.2.2 x hx
  have hr : 0 < hi - lo + eps := by linarith
  refine ⟨div_nonneg (by linarith) hr.le, ?_⟩
  rw [div_lt_one hr]
  linarith

end Machin.Media
