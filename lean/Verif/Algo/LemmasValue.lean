import Mathlib.Tactic.Linarith
import Mathlib.Tactic.Ring
import Mathlib.Tactic.FieldSimp
import Mathlib.Tactic.Positivity
import Verif.Algo.Value

/-! # Helper lemmas on target values -/

namespace Machin.Algo

theorem mapE_ok {α β : Type} {f : α → Except Err β} : ∀ {l : List α} {r : List β}, mapE f l = .ok r →
    r.length = l.length ∧ ∀ (i : Nat) (x : α) (y : β), l[i]? = some x → r[i]? = some y → f x = .ok y := by
  intro l
  induction l with
  | nil =>
    intro r h
    simp only [mapE, Except.ok.injEq] at h
    subst h
    simp
  | cons x xs ih =>
    intro r h
    simp only [mapE] at h
    cases hx : f x with
    | error e => simp [hx] at h
    | ok y =>
      simp only [hx] at h
      cases hxs : mapE f xs with
      | error e => simp [hxs] at h
      | ok ys =>
        simp only [hxs, Except.ok.injEq] at h
        subst h
        obtain ⟨h1, h2⟩ := ih hxs
        refine ⟨by simp [h1], ?_⟩
        intro i a b ha hb
        cases i with
        | zero => simp at ha hb; subst ha hb; exact hx
        | succ i => simp at ha hb; exact h2 i a b ha hb

theorem mapE_total {α β : Type} {f : α → Except Err β} {l : List α} (h : ∀ x ∈ l, ∃ y, f x = .ok y) : ∃ r, mapE f l = .ok r := by
  induction l with
  | nil => exact ⟨[], rfl⟩
  | cons x xs ih =>
    obtain ⟨y, hy⟩ := h x (by simp)
    obtain ⟨r, hr⟩ := ih fun z hz => h z (by simp [hz])
    exact ⟨y :: r, by simp [mapE, hy, hr]⟩

theorem maxFrom_spec : ∀ (xs pre : List ℚ) (best : ℚ) (k : Nat), pre[k]? = some best → (∀ x ∈ pre, x ≤ best) →
    (∀ (j : Nat) (x : ℚ), j < k → pre[j]? = some x → x < best) →
    let r := maxFrom best k pre.length xs
    (pre ++ xs)[r.2]? = some r.1 ∧ (∀ x ∈ pre ++ xs, x ≤ r.1) ∧ (∀ (j : Nat) (x : ℚ), j < r.2 → (pre ++ xs)[j]? = some x → x < r.1) := by
  intro xs
  induction xs with
  | nil =>
    intro pre best k h1 h2 h3
    simp only [maxFrom, List.append_nil]
    exact ⟨h1, h2, h3⟩
  | cons y ys ih =>
    intro pre best k h1 h2 h3
    have hk : k < pre.length := by
      by_contra hc
      rw [List.getElem?_eq_none (Nat.le_of_not_lt hc)] at h1
      cases h1
    have e : pre ++ y :: ys = (pre ++ [y]) ++ ys := by simp
    have hl : pre.length + 1 = (pre ++ [y]).length := by simp
    simp only [maxFrom]
    split
    · rename_i hlt
      rw [e, hl]
      refine ih (pre ++ [y]) y pre.length (by simp) ?_ ?_
      · intro x hx
        simp only [List.mem_append, List.mem_singleton] at hx
        rcases hx with hx | hx
        · exact le_of_lt (lt_of_le_of_lt (h2 x hx) hlt)
        · exact le_of_eq hx
      · intro j x hj hx
        rw [List.getElem?_append_left hj] at hx
        exact lt_of_le_of_lt (h2 x (List.mem_of_getElem? hx)) hlt
    · rename_i hlt
      rw [e, hl]
      refine ih (pre ++ [y]) best k (by rw [List.getElem?_append_left hk]; exact h1) ?_ ?_
      · intro x hx
        simp only [List.mem_append, List.mem_singleton] at hx
        rcases hx with hx | hx
        · exact h2 x hx
        · rw [hx]; exact not_lt.mp hlt
      · intro j x hj hx
        rw [List.getElem?_append_left (lt_trans hj hk)] at hx
        exact h3 j x hj hx

theorem rowMax_spec {row : List ℚ} {v : ℚ} {i : Nat} (h : rowMax row = .ok (v, i)) :
    row[i]? = some v ∧ (∀ x ∈ row, x ≤ v) ∧ ∀ (j : Nat) (x : ℚ), j < i → row[j]? = some x → x < v := by
  cases row with
  | nil => cases h
  | cons y ys =>
    simp only [rowMax, Except.ok.injEq] at h
    have := maxFrom_spec ys [y] y 0 (by simp) (by simp) (by simp)
    simp only [List.length_singleton, h, List.singleton_append] at this
    exact this

theorem rowMax_total {row : List ℚ} (h : row ≠ []) : ∃ p, rowMax row = .ok p := by
  cases row with
  | nil => exact absurd rfl h
  | cons y ys => exact ⟨_, rfl⟩

theorem mean_add_const (l : List ℚ) (c : ℚ) (h : l ≠ []) : mean (l.map (· + c)) = mean l + c := by
  have hs : (l.map (· + c)).sum = l.sum + (l.length : ℚ) * c := by
    clear h
    induction l with
    | nil => simp
    | cons x xs ih =>
      simp only [List.map_cons, List.sum_cons, ih, List.length_cons, Nat.cast_add, Nat.cast_one]
      ring
  have hl : (l.length : ℚ) ≠ 0 := by
    have : l.length ≠ 0 := fun hc => h (List.length_eq_zero_iff.mp hc)
    exact_mod_cast this
  simp only [mean, hs, List.length_map]
  field_simp

end Machin.Algo
