import Verif.Algo.LemmasValue
import Mathlib.Data.Fintype.Pi
import Mathlib.Data.Fintype.Prod
import Mathlib.Algebra.BigOperators.Fin
import Mathlib.Data.Fintype.BigOperators
import Mathlib.Data.Rat.Floor

/-!
# C206: the distribution of epsilon-greedy actions

`t.rand([1])` is a multiple of `1 / N` (for single precision `N = 2^24`), `t.randint` gives one of `n` actions for every row; all outcomes are
equally likely.
-/

namespace Machin.Algo

/-- The outcomes of the random generator: the draw and one action per row. -/
abbrev Outcome (N b n : Nat) := Fin N × (Fin b → Fin n)

/-- The action of row `j` under an outcome. -/
def rowAction {N b n : Nat} (e : Eps) (rows : List (List ℚ)) (decay : Bool) (j : Nat) (o : Outcome N b n) : Option Nat :=
  match (actNoise e rows ((o.1.val : ℚ) / N) (List.ofFn fun i => (o.2 i).val) decay).2 with
  | .error _ => none
  | .ok l => l[j]?

/-- The share of the outcomes with some property. -/
def share {N b n : Nat} (p : Outcome N b n → Bool) : ℚ :=
  ((Finset.univ.filter fun o => p o = true).card : ℚ) / Fintype.card (Outcome N b n)

/-- The share of draws below epsilon. -/
def below (N : Nat) (eps : ℚ) : ℚ := ((Finset.univ.filter fun i : Fin N => (i.val : ℚ) / N < eps).card : ℚ) / N

theorem card_row {b n : Nat} (j : Fin b) (a : Fin n) :
    (n : ℚ) * ((Finset.univ.filter fun rs : Fin b → Fin n => rs j = a).card : ℚ) = Fintype.card (Fin b → Fin n) := by
  have hsame : ∀ a', (Finset.univ.filter fun rs : Fin b → Fin n => rs j = a').card = (Finset.univ.filter fun rs : Fin b → Fin n => rs j = a).card := by
    intro a'
    refine Finset.card_bij' (fun rs _ => fun i => Equiv.swap a a' (rs i)) (fun rs _ => fun i => Equiv.swap a a' (rs i)) ?_ ?_ ?_ ?_
    · intro rs h; simp only [Finset.mem_filter, Finset.mem_univ, true_and] at h ⊢; rw [h]; exact Equiv.swap_apply_right a a'
    · intro rs h; simp only [Finset.mem_filter, Finset.mem_univ, true_and] at h ⊢; rw [h]; exact Equiv.swap_apply_left a a'
    · intro rs _; funext i; simp
    · intro rs _; funext i; simp
  have hsum : ∑ a' : Fin n, (Finset.univ.filter fun rs : Fin b → Fin n => rs j = a').card = Fintype.card (Fin b → Fin n) := by
    rw [← Finset.card_univ]
    exact (Finset.card_eq_sum_card_fiberwise (f := fun rs : Fin b → Fin n => rs j) (t := Finset.univ) (by intro x _; simp)).symm
  simp only [hsame, Finset.sum_const, Finset.card_univ, Fintype.card_fin, smul_eq_mul] at hsum
  exact_mod_cast hsum

theorem actNoise_acts {e : Eps} {rows : List (List ℚ)} {best : List (ℚ × Nat)} (h : mapE rowMax rows = .ok best) (draw : ℚ) (random : List Nat)
    (decay : Bool) : (actNoise e rows draw random decay).2 = .ok (if draw < e.epsilon then random else best.map (·.2)) := by
  simp [actNoise, h]

/-- Every action of every row is taken with probability `κ / n`, and the first best one with `1 - κ` more, where `κ` is the share of draws
below epsilon. -/
theorem C206_marginal (N b n : Nat) (hN : 0 < N) (e : Eps) (rows : List (List ℚ)) (hb : rows.length = b) (hr : ∀ r ∈ rows, r.length = n) (hn : 0 < n)
    (decay : Bool) (j : Fin b) (a : Fin n) :
    ∃ i, qActDiscrete (S := Unit) (fun _ => rows[j]'(by rw [hb]; exact j.isLt)) (fun _ => []) () false = .ok i ∧
      share (fun o : Outcome N b n => decide (rowAction e rows decay j o = some a.val)) =
        below N e.epsilon / n + (if a.val = i then 1 - below N e.epsilon else 0) := by
  obtain ⟨best, hbest⟩ : ∃ best, mapE rowMax rows = .ok best := mapE_total fun r hr' => rowMax_total (by
    intro h0; have := hr r hr'; rw [h0] at this; simp at this; omega)
  obtain ⟨hl, hget⟩ := mapE_ok hbest
  have hj : j.val < rows.length := by rw [hb]; exact j.isLt
  have hjb : j.val < best.length := by omega
  have hrow := hget j.val _ _ (List.getElem?_eq_getElem hj) (List.getElem?_eq_getElem hjb)
  refine ⟨(best[j.val]).2, ?_, ?_⟩
  · simp only [qActDiscrete, qCriticize]
    have : rowMax (rows[j.val]'hj) = .ok (best[j.val].1, best[j.val].2) := hrow
    simp [this]
  · have hact : ∀ o : Outcome N b n, rowAction e rows decay j o =
        some (if (o.1.val : ℚ) / N < e.epsilon then (o.2 j).val else (best[j.val]).2) := by
      intro o
      simp only [rowAction, actNoise_acts hbest]
      split
      · simp
      · rw [List.getElem?_map, List.getElem?_eq_getElem hjb]; rfl
    set B := Finset.univ.filter fun i : Fin N => (i.val : ℚ) / N < e.epsilon with hB
    set R := Finset.univ.filter fun rs : Fin b → Fin n => rs j = a with hR
    have hset : (Finset.univ.filter fun o : Outcome N b n => decide (rowAction e rows decay j o = some a.val) = true) =
        (B ×ˢ R) ∪ (if a.val = (best[j.val]).2 then Bᶜ ×ˢ Finset.univ else ∅) := by
      ext o
      simp only [hact, Finset.mem_filter, Finset.mem_univ, true_and, decide_eq_true_eq, Option.some.injEq, Finset.mem_union, Finset.mem_product]
      by_cases hd : (o.1.val : ℚ) / N < e.epsilon
      · have h1 : o.1 ∈ B := by simp [hB, hd]
        simp only [hd, if_true, h1, true_and]
        have : o.2 ∈ R ↔ (o.2 j).val = a.val := by simp [hR, Fin.ext_iff]
        rw [← this]
        constructor
        · exact Or.inl
        · rintro (h | h)
          · exact h
          · split at h
            · simp [h1] at h
            · simp at h
      · have h1 : o.1 ∉ B := by simp [hB, not_lt.1 hd]
        simp only [hd, if_false, h1, false_and, false_or]
        by_cases ha : a.val = (best[j.val]).2
        · simp [ha, h1]
        · simp [ha, Ne.symm ha]
    have hdisj : Disjoint (B ×ˢ R) (if a.val = (best[j.val]).2 then Bᶜ ×ˢ Finset.univ else ∅) := by
      split
      · rw [Finset.disjoint_left]
        intro o h1 h2
        simp only [Finset.mem_product, Finset.mem_compl] at h1 h2
        exact h2.1 h1.1
      · exact Finset.disjoint_empty_right _
    have hNq : (N : ℚ) ≠ 0 := by exact_mod_cast hN.ne'
    have hnq : (n : ℚ) ≠ 0 := by exact_mod_cast hn.ne'
    have hcard := card_row j a
    have hcpos : (Fintype.card (Fin b → Fin n) : ℚ) ≠ 0 := by
      have : Nonempty (Fin b → Fin n) := ⟨fun _ => a⟩
      exact_mod_cast Fintype.card_ne_zero
    rw [share, hset, Finset.card_union_of_disjoint hdisj, Finset.card_product, Fintype.card_prod, Fintype.card_fin, below]
    rw [← hR] at hcard
    have hRq : (R.card : ℚ) = Fintype.card (Fin b → Fin n) / n := by field_simp; linarith
    have hBN : B.card ≤ N := by
      have := Finset.card_le_univ B
      simpa using this
    split
    · rw [Finset.card_product, Finset.card_compl, Finset.card_univ, Fintype.card_fin]
      rw [Nat.cast_add, Nat.cast_mul, Nat.cast_mul, Nat.cast_mul, Nat.cast_sub hBN, hRq]
      generalize (Fintype.card (Fin b → Fin n) : ℚ) = c at hcpos
      generalize (B.card : ℚ) = k
      field_simp
    · rw [Finset.card_empty]
      rw [Nat.cast_add, Nat.cast_mul, Nat.cast_mul, Nat.cast_zero, hRq]
      generalize (Fintype.card (Fin b → Fin n) : ℚ) = c at hcpos
      generalize (B.card : ℚ) = k
      field_simp
      ring

/-- The share of draws below epsilon is epsilon, up to the resolution of the generator. -/
theorem C206_resolution (N : Nat) (hN : 0 < N) (eps : ℚ) (h0 : 0 ≤ eps) (h1 : eps ≤ 1) : eps ≤ below N eps ∧ below N eps < eps + 1 / N := by
  have hNq : (0 : ℚ) < N := by exact_mod_cast hN
  have hle : ⌈eps * N⌉₊ ≤ N := by
    rw [Nat.ceil_le]
    nlinarith
  have hset : (Finset.univ.filter fun i : Fin N => (i.val : ℚ) / N < eps).card = ⌈eps * N⌉₊ := by
    have : (Finset.univ.filter fun i : Fin N => (i.val : ℚ) / N < eps) = Finset.univ.filter fun i : Fin N => i.val < ⌈eps * N⌉₊ := by
      ext i
      simp only [Finset.mem_filter, Finset.mem_univ, true_and]
      rw [div_lt_iff₀ hNq, Nat.lt_ceil]
    rw [this, Fin.card_filter_val_lt]
    exact Nat.min_eq_right hle
  rw [below, hset]
  constructor
  · rw [le_div_iff₀ hNq]
    exact Nat.le_ceil _
  · rw [div_lt_iff₀ hNq]
    have := Nat.ceil_lt_add_one (show 0 ≤ eps * N from mul_nonneg h0 hNq.le)
    have e : (eps + 1 / N) * N = eps * N + 1 := by field_simp
    rw [e]
    exact this

/-- One draw decides for all rows of a batch: either all of them are random or all of them are greedy. -/
theorem C206_joint (e : Eps) (rows : List (List ℚ)) (best : List (ℚ × Nat)) (h : mapE rowMax rows = .ok best) (draw : ℚ) (random : List Nat) (decay : Bool) :
    (actNoise e rows draw random decay).2 = .ok random ∨ (actNoise e rows draw random decay).2 = .ok (best.map (·.2)) := by
  rw [actNoise_acts h]
  split
  · exact Or.inl rfl
  · exact Or.inr rfl

/-- Two rows of two actions, epsilon 1/2, four possible draws: the best action of row 0 is taken with probability 3/4. -/
example : share (fun o : Outcome 4 2 2 => decide (rowAction ⟨1 / 2, 1⟩ [[1, 3], [5, 2]] false 0 o = some 1)) = 3 / 4 ∧ below 4 (1 / 2) = 1 / 2 := by
  decide +kernel

end Machin.Algo
