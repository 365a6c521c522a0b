import Verif.Ars.PropsUpdate

/-! # Properties of the ARS update: C145 -/

namespace Machin.Ars

variable {K : Type}

/-! ### C145: the best rollouts are used -/

/-- C145, full statement: the positions used are those of `used_rollout_num` best rollouts: as many as asked for, and none that is left out is better. -/
def C145_full : Prop :=
  ∀ (rolloutNum usedNum : Nat) (xs : List ℚ), xs.length = rolloutNum → usedNum ≤ rolloutNum → 0 < rolloutNum →
    (used rolloutNum usedNum xs).length = usedNum ∧
    ∀ (i j : Nat) (x y : ℚ), i ∈ used rolloutNum usedNum xs → j ∉ used rolloutNum usedNum xs → xs[i]? = some x → xs[j]? = some y → y ≤ x

section
variable [Field K] [LinearOrder K] [IsStrictOrderedRing K]

theorem sorted_le (xs : List K) : (xs.insertionSort (· ≤ ·)).Pairwise (· ≤ ·) := by
  exact List.pairwise_insertionSort (· ≤ ·) xs

theorem getD_get (s : List K) {i : Nat} (h : i < s.length) : s.getD i 0 = s[i] := by
  simp [h]

theorem pairwise_get {s : List K} (h : s.Pairwise (· ≤ ·)) {i j : Nat} (hij : i ≤ j) (hj : j < s.length) : s.getD i 0 ≤ s.getD j 0 := by
  rcases Nat.lt_or_eq_of_le hij with h' | h'
  · rw [getD_get _ (by omega), getD_get _ hj]
    exact List.pairwise_iff_getElem.1 h i j (by omega) hj h'
  · rw [h']

/-- The percentile separates like the value at the position `n - u` of the sorted list. -/
theorem percentile_le_iff (n u : Nat) (xs : List K) (hn : xs.length = n) (hu : 0 < u) (hun : u ≤ n) (x : K) (hx : x ∈ xs) :
    percentile xs (n - u) n ≤ x ↔ (xs.insertionSort (· ≤ ·)).getD (n - u) 0 ≤ x := by
  have hs := sorted_le xs
  have hperm := List.perm_insertionSort (· ≤ ·) xs
  have hlen : (xs.insertionSort (· ≤ ·)).length = n := by rw [hperm.length_eq, hn]
  have hxs : x ∈ (xs.insertionSort (· ≤ ·)) := hperm.mem_iff.2 hx
  unfold percentile
  generalize (xs.insertionSort (· ≤ ·)) = s at *
  dsimp only
  rw [hn]
  by_cases hcase : u = n
  · subst hcase
    simp
  · obtain ⟨m, hm⟩ : ∃ m, n - u = m + 1 := ⟨n - u - 1, by omega⟩
    have hprod : (m + 1) * (n - 1) = u + n * m := by
      obtain ⟨k, rfl⟩ : ∃ k, n = k + 1 := ⟨n - 1, by omega⟩
      have : u = k - m := by omega
      have hk : m ≤ k := by omega
      obtain ⟨d, rfl⟩ := Nat.exists_eq_add_of_le hk
      rw [this]
      simp only [Nat.add_sub_cancel, Nat.add_sub_cancel_left]
      ring
    have hdiv : (m + 1) * (n - 1) / n = m := by
      rw [hprod, Nat.add_mul_div_left _ _ (by omega), Nat.div_eq_of_lt (by omega)]
      simp
    have hmod : (m + 1) * (n - 1) % n = u := by
      rw [hprod, Nat.add_mul_mod_self_left, Nat.mod_eq_of_lt (by omega)]
    rw [hm, hdiv, hmod, Nat.min_eq_left (by omega)]
    have hab : s.getD m 0 ≤ s.getD (m + 1) 0 := pairwise_get hs (by omega) (by omega)
    have hn0 : (0 : K) < (n : K) := by exact_mod_cast (by omega : 0 < n)
    have hg0 : (0 : K) < (u : K) / (n : K) := div_pos (by exact_mod_cast hu) hn0
    have hg1 : (u : K) / (n : K) ≤ 1 := (div_le_one hn0).2 (by exact_mod_cast hun)
    have hd : 0 ≤ s.getD (m + 1) 0 - s.getD m 0 := sub_nonneg.2 hab
    constructor
    · intro h
      obtain ⟨k, hk, rfl⟩ := List.getElem_of_mem hxs
      have hk' : s[k] = s.getD k 0 := (getD_get _ hk).symm
      rw [hk'] at h ⊢
      by_cases hkm : m + 1 ≤ k
      · exact pairwise_get hs hkm hk
      · have hle : s.getD k 0 ≤ s.getD m 0 := pairwise_get hs (by omega) (by omega)
        have h0 := mul_nonneg hd hg0.le
        have heq : (s.getD (m + 1) 0 - s.getD m 0) * ((u : K) / (n : K)) ≤ 0 := by linarith
        have hb : s.getD (m + 1) 0 - s.getD m 0 ≤ 0 := by
          by_contra hc
          exact absurd (mul_pos (lt_of_not_ge hc) hg0) (not_lt.2 heq)
        linarith
    · intro h
      have := mul_le_mul_of_nonneg_left hg1 hd
      linarith

/-- In a sorted list, the value at position `n - u` is at most `x` exactly if fewer than `u` entries exceed `x`. -/
theorem sorted_count (s : List K) (hs : s.Pairwise (· ≤ ·)) (u : Nat) (hu : 0 < u) (hun : u ≤ s.length) (x : K) :
    s.getD (s.length - u) 0 ≤ x ↔ s.countP (fun y => decide (x < y)) < u := by
  constructor
  · intro h
    rw [← List.take_append_drop (s.length - u + 1) s, List.countP_append]
    have h1 : (s.take (s.length - u + 1)).countP (fun y => decide (x < y)) = 0 := by
      rw [List.countP_eq_zero]
      intro y hy
      obtain ⟨k, hk, rfl⟩ := List.getElem_of_mem hy
      rw [List.length_take] at hk
      have := pairwise_get hs (i := k) (j := s.length - u) (by omega) (by omega)
      rw [List.getElem_take]
      have e : s[k] = s.getD k 0 := (getD_get _ (by omega)).symm
      simp only [decide_eq_true_eq, not_lt]
      rw [e]
      exact le_trans this h
    have h2 := List.countP_le_length (p := fun y => decide (x < y)) (l := s.drop (s.length - u + 1))
    rw [List.length_drop] at h2
    rw [h1]
    omega
  · intro h
    by_contra hc
    have hc := lt_of_not_ge hc
    have : (s.drop (s.length - u)).countP (fun y => decide (x < y)) = (s.drop (s.length - u)).length := by
      rw [List.countP_eq_length]
      intro y hy
      obtain ⟨k, hk, rfl⟩ := List.getElem_of_mem hy
      rw [List.length_drop] at hk
      rw [List.getElem_drop]
      have := pairwise_get hs (i := s.length - u) (j := s.length - u + k) (by omega) (by omega)
      have e : s[s.length - u + k] = s.getD (s.length - u + k) 0 := (getD_get _ (by omega)).symm
      simp only [decide_eq_true_eq]
      rw [e]
      exact lt_of_lt_of_le hc this
    have hle : (s.drop (s.length - u)).countP (fun y => decide (x < y)) ≤ s.countP (fun y => decide (x < y)) :=
      (List.drop_sublist _ _).countP_le
    rw [this, List.length_drop] at hle
    omega

/-- C145, what holds, ties included: rollout `i` is used exactly if fewer than `used_rollout_num` rollouts are better than it. -/
theorem C145_used_iff_partial (n u : Nat) (xs : List K) (hn : xs.length = n) (hu : 0 < u) (hun : u ≤ n) (i : Nat) (x : K) (hx : xs[i]? = some x) :
    i ∈ used n u xs ↔ xs.countP (fun y => decide (x < y)) < u := by
  have hi : i < xs.length := (List.getElem?_eq_some_iff.1 hx).1
  have hperm := List.perm_insertionSort (· ≤ ·) xs
  unfold used
  rw [List.mem_filter, List.mem_range, List.getD_eq_getElem?_getD, hx, Option.getD_some, decide_eq_true_eq,
    percentile_le_iff n u xs hn hu hun x (List.mem_of_getElem? hx)]
  have h := sorted_count _ (sorted_le xs) u hu (by rw [hperm.length_eq]; omega) x
  rw [hperm.length_eq, hn, hperm.countP_eq] at h
  rw [h]
  exact and_iff_right hi

omit [IsStrictOrderedRing K] in
theorem used_length (n u : Nat) (xs : List K) : (used n u xs).length = xs.countP fun y => decide (percentile xs (n - u) n ≤ y) := by
  unfold used
  rw [← List.countP_eq_length_filter]
  have e : xs = (List.range xs.length).map fun i => xs.getD i 0 := by
    apply List.ext_getElem (by simp)
    intro k h1 h2
    simp [h1]
  conv_rhs => rw [e, List.countP_map]
  congr 1
  funext i
  rw [← e]
  rfl

/-- C145: at least as many rollouts are used as asked for, exactly as many if no two have equal best rewards, and no unused rollout is better than a used
one. -/
theorem C145_number_partial (n u : Nat) (xs : List K) (hn : xs.length = n) (hu : 0 < u) (hun : u ≤ n) :
    u ≤ (used n u xs).length ∧ (xs.Nodup → (used n u xs).length = u) ∧
    ∀ (i j : Nat) (x y : K), i ∈ used n u xs → j ∉ used n u xs → xs[i]? = some x → xs[j]? = some y → y < x := by
  have hperm := List.perm_insertionSort (· ≤ ·) xs
  have hs := sorted_le xs
  have hcount : (used n u xs).length = (xs.insertionSort (· ≤ ·)).countP
      fun y => decide ((xs.insertionSort (· ≤ ·)).getD (n - u) 0 ≤ y) := by
    rw [used_length, hperm.countP_eq]
    apply List.countP_congr
    intro x hx
    simp only [decide_eq_true_eq]
    exact percentile_le_iff n u xs hn hu hun x hx
  have hlen : (xs.insertionSort (· ≤ ·)).length = n := by rw [hperm.length_eq, hn]
  have hnd : xs.Nodup → (xs.insertionSort (· ≤ ·)).Nodup := fun h => hperm.nodup_iff.2 h
  generalize (xs.insertionSort (· ≤ ·)) = s at *
  have hdrop : (s.drop (n - u)).countP (fun y => decide (s.getD (n - u) 0 ≤ y)) = u := by
    have : (s.drop (n - u)).countP (fun y => decide (s.getD (n - u) 0 ≤ y)) = (s.drop (n - u)).length := by
      rw [List.countP_eq_length]
      intro y hy
      obtain ⟨k, hk, rfl⟩ := List.getElem_of_mem hy
      rw [List.length_drop] at hk
      rw [List.getElem_drop]
      have := pairwise_get hs (i := n - u) (j := n - u + k) (by omega) (by omega)
      have e : s[n - u + k] = s.getD (n - u + k) 0 := (getD_get _ (by omega)).symm
      simp only [decide_eq_true_eq]
      rw [e]
      exact this
    rw [this, List.length_drop]
    omega
  have hsplit : s.countP (fun y => decide (s.getD (n - u) 0 ≤ y)) = (s.take (n - u)).countP (fun y => decide (s.getD (n - u) 0 ≤ y)) + u := by
    have := List.countP_append (p := fun y => decide (s.getD (n - u) 0 ≤ y)) (l₁ := s.take (n - u)) (l₂ := s.drop (n - u))
    rw [List.take_append_drop, hdrop] at this
    exact this
  refine ⟨by rw [hcount, hsplit]; omega, ?_, ?_⟩
  · intro h
    have hnd := hnd h
    rw [hcount, hsplit]
    have : (s.take (n - u)).countP (fun y => decide (s.getD (n - u) 0 ≤ y)) = 0 := by
      rw [List.countP_eq_zero]
      intro y hy
      obtain ⟨k, hk, rfl⟩ := List.getElem_of_mem hy
      rw [List.length_take] at hk
      rw [List.getElem_take]
      have h1 := pairwise_get hs (i := k) (j := n - u) (by omega) (by omega)
      have e : s[k] = s.getD k 0 := (getD_get _ (by omega)).symm
      simp only [decide_eq_true_eq]
      rw [e]
      intro h2
      have h3 := le_antisymm h1 h2
      rw [getD_get _ (by omega), getD_get _ (by omega)] at h3
      have := (List.Nodup.getElem_inj_iff hnd).1 h3
      omega
    omega
  · intro i j x y hi hj hx hy
    rw [C145_used_iff_partial n u xs hn hu hun i x hx] at hi
    rw [C145_used_iff_partial n u xs hn hu hun j y hy] at hj
    by_contra hc
    have hc := not_lt.1 hc
    apply hj
    refine lt_of_le_of_lt ?_ hi
    apply List.countP_mono_left
    intro z _ hz
    simp only [decide_eq_true_eq] at *
    exact lt_of_le_of_lt hc hz

end

/-- Equal best rewards: all rollouts are used, however few are asked for. -/
theorem C145_violated_ties (n u : Nat) (hu : 0 < u) (hun : u ≤ n) (c : ℚ) : (used n u (List.replicate n c)).length = n := by
  have : ∀ i, i < n → i ∈ used n u (List.replicate n c) := by
    intro i hi
    rw [C145_used_iff_partial n u _ (by simp) hu hun i c (by simp [hi])]
    rw [List.countP_eq_zero.2 (by
      intro y hy
      rw [List.eq_of_mem_replicate hy]
      simp)]
    exact hu
  have h2 : used n u (List.replicate n c) = List.range n := by
    unfold used at this ⊢
    rw [List.length_replicate] at this ⊢
    rw [List.filter_eq_self]
    intro i hi
    exact (List.mem_filter.1 (this i (List.mem_range.1 hi))).2
  rw [h2, List.length_range]

/-- C145 is violated. -/
theorem C145_violated : ¬ C145_full := by
  intro h
  have := (h 4 2 (List.replicate 4 1) (by simp) (by omega) (by omega)).1
  rw [C145_violated_ties 4 2 (by omega) (by omega)] at this
  omega

/-- Four rollouts, two used: the two best; with a tie three. With `used_rollout_num = 0` the best one is used. -/
example : used 4 2 [(3 : ℚ), 1, 4, 2] = [0, 2] ∧ used 4 2 [(3 : ℚ), 3, 4, 2] = [0, 1, 2] ∧ used 4 0 [(3 : ℚ), 1, 4, 2] = [2] := by decide +kernel

end Machin.Ars
