import Verif.Batch.Props

/-! # Properties of targets computed on whole batches: C138 -/

namespace Machin.Batch

open Machin.Algo.Spec (bellman average)

/-- A column: the entries of a list, one per row. -/
def column {α : Type} [Inhabited α] (l : List α) : Arr α := (Tensor.mk [l.length, 1] l).arr

/-- What sampling makes of numbers is a column. -/
theorem column_of_numbers (rs : List ℚ) (h : rs ≠ []) :
    makeTensor (rs.map Item.scalar) true = .ok (.tensor ⟨[rs.length, 1], rs⟩) := by
  obtain ⟨a, rest, rfl⟩ := List.exists_cons_of_ne_nil h
  have := (C137_numbers_partial a (rest.map Item.scalar) rest (by
    rw [List.forall₂_map_left_iff]
    exact List.forall₂_same.2 fun a _ => .inl rfl)).1
  rw [List.map_cons, this]
  simp

/-- What sampling makes of tensors with one entry. -/
theorem flat_of_tensors (rs : List ℚ) (h : rs ≠ []) (s : List Nat) (hs : s.prod = 1) :
    makeTensor (rs.map fun r => Item.tensor ⟨1 :: s, [r]⟩) true = .ok (.tensor ⟨rs.length :: s, rs⟩) := by
  have := C137_blocks (rs.map fun r => Tensor.mk (1 :: s) [r]) s (fun _ => 1) (by simpa using h) (by
    intro t ht; obtain ⟨r, _, rfl⟩ := List.mem_map.1 ht; rfl) (by
    intro t ht; obtain ⟨r, _, rfl⟩ := List.mem_map.1 ht; simp [Proper, hs])
  obtain ⟨r, h1, h2, h3, _⟩ := this
  rw [List.map_map] at h1
  have e : r = ⟨rs.length :: s, rs⟩ := by
    obtain ⟨a, b⟩ := r
    simp only at h2 h3
    rw [h2, h3, sum_map_const_one _ _ (fun _ _ => rfl), List.length_map]
    congr 1
    rw [List.flatMap_map]
    simp
  rw [← e]
  exact h1

@[simp] theorem column_shape {α : Type} [Inhabited α] (l : List α) : (column l).rshape = [1, l.length] := rfl

@[simp] theorem column_get {α : Type} [Inhabited α] (l : List α) (i : Nat) : (column l).get [0, i] = l.getD i default := by
  simp [column, Tensor.arr, flatIndex]

/-! ## C138: every transition is trained towards its own target -/

/-- The ways in which the transition class accepts a reward `r`: as a number, or as a tensor with one row and one entry, of any number of
dimensions. -/
inductive Stored : (ℚ → Item ℚ) → Prop
  | number : Stored Item.scalar
  | tensor (s : List Nat) (hs : s.prod = 1) : Stored (fun r => .tensor ⟨1 :: s, [r]⟩)

/-- C138, full statement: however the rewards were stored, the entries of the targets in row `i` (the first dimension is the last one of the
position) are the Bellman target of transition `i`. `vs` are the values of the next states and `ts` the terminal flags, stored as numbers. -/
def C138_full : Prop :=
  ∀ (store : ℚ → Item ℚ) (rs vs : List ℚ) (ts : List Bool) (γ : ℚ), Stored store → rs ≠ [] → vs.length = rs.length → ts.length = rs.length →
    ∃ r y, makeTensor (rs.map store) true = .ok (.tensor r) ∧ rewardFunction r.arr γ (column vs) (column ts) = .ok y ∧
      ∃ s, y.rshape = s ++ [rs.length] ∧ ∀ (pos : List Nat) (i : Nat), pos ++ [i] ∈ positions y.rshape →
        y.get (pos ++ [i]) = bellman (rs.getD i default) γ (vs.getD i default) (ts.getD i default)

theorem factor (γ v : ℚ) (r : ℚ) (t : Bool) : r + γ * (if t then 0 else 1) * v = bellman r γ v t := by
  cases t <;> simp [bellman]

/-- C138, what holds: for rewards in columns (numbers, or tensors with two dimensions) row `i` holds the target of transition `i` only; rewards
may have several columns. -/
theorem C138_own_partial (n d : Nat) (reward next : Arr ℚ) (terminal : Arr Bool) (γ : ℚ) (hr : reward.rshape = [d, n])
    (hv : next.rshape = [1, n]) (ht : terminal.rshape = [1, n]) :
    ∃ y, rewardFunction reward γ next terminal = .ok y ∧ y.rshape = [d, n] ∧ ∀ i < n, ∀ j < d,
      y.get [j, i] = bellman (reward.get [j, i]) γ (next.get [0, i]) (terminal.get [0, i]) := by
  have hs : bshape [d, n] [1, n] = some [d, n] := by
    by_cases hd : d = 1 <;> simp [bshape, hd]
  have hs1 : bshape [1, n] [1, n] = some [1, n] := by simp [bshape]
  unfold rewardFunction Arr.op
  simp only [Arr.map, ht, hv, hs1, hr, hs]
  refine ⟨_, rfl, rfl, ?_⟩
  intro i hi j hj
  have hi' : (if n = 1 then 0 else i) = i := by split <;> omega
  have hj' : (if d = 1 then 0 else j) = j := by split <;> omega
  simp only [bindex, hi', hj', if_true]
  exact factor _ _ _ _

/-- The instance for rewards stored as numbers. -/
theorem C138_numbers_partial (rs vs : List ℚ) (ts : List Bool) (γ : ℚ) (hne : rs ≠ []) (hv : vs.length = rs.length) (ht : ts.length = rs.length) :
    ∃ r y, makeTensor (rs.map Item.scalar) true = .ok (.tensor r) ∧ rewardFunction r.arr γ (column vs) (column ts) = .ok y ∧
      y.rshape = [1, rs.length] ∧ ∀ i < rs.length, y.get [0, i] = bellman (rs.getD i default) γ (vs.getD i default) (ts.getD i default) := by
  obtain ⟨y, h1, h2, h3⟩ := C138_own_partial rs.length 1 (column rs) (column vs) (column ts) γ (column_shape rs)
    (by rw [column_shape, hv]) (by rw [column_shape, ht])
  refine ⟨_, y, column_of_numbers rs hne, h1, h2, ?_⟩
  intro i hi
  rw [h3 i hi 0 (by omega), column_get, column_get, column_get]

example : (do
    let y ← rewardFunction (column [1, 2]) (1 / 2) (column [10, 20]) (column [false, true])
    pure (y.rshape, y.get [0, 0], y.get [0, 1])) = Except.ok ([1, 2], 6, 2) := by decide +kernel

/-- Rewards stored as tensors of shape `[1]`: the targets form a square, row `i` has for every transition `j` of the batch the reward of
transition `j` together with the next value and the terminal flag of transition `i`. -/
theorem C138_violated_flat (rs vs : List ℚ) (ts : List Bool) (γ : ℚ) (hne : rs ≠ []) (hv : vs.length = rs.length) (ht : ts.length = rs.length) :
    ∃ r y, makeTensor (rs.map fun r => Item.tensor ⟨[1], [r]⟩) true = .ok (.tensor r) ∧
      rewardFunction r.arr γ (column vs) (column ts) = .ok y ∧ y.rshape = [rs.length, rs.length] ∧ ∀ i < rs.length, ∀ j < rs.length,
        y.get [j, i] = bellman (rs.getD j default) γ (vs.getD i default) (ts.getD i default) := by
  generalize hn : rs.length = n at *
  have hs1 : bshape [1, n] [1, n] = some [1, n] := by simp [bshape]
  have hs : bshape [n] [1, n] = some [n, n] := by
    simp only [bshape]
    split
    · rfl
    · rfl
  refine ⟨⟨[n], rs⟩, ?_⟩
  have e := flat_of_tensors rs hne [] rfl
  rw [hn] at e
  unfold rewardFunction Arr.op
  simp only [Arr.map, column_shape, hv, ht, hs1]
  rw [show (Tensor.arr ⟨[n], rs⟩ : Arr ℚ).rshape = [n] from rfl, hs]
  refine ⟨_, e, rfl, rfl, ?_⟩
  intro i hi j hj
  have hi' : (if n = 1 then 0 else i) = i := by split <;> omega
  have hj' : (if n = 1 then 0 else j) = j := by split <;> omega
  simp only [bindex, hi', hj', if_true, column_get]
  rw [show (Tensor.arr ⟨[n], rs⟩ : Arr ℚ).get [j] = rs.getD j default by simp [Tensor.arr, flatIndex]]
  exact factor _ _ _ _

example : (do
    let y ← rewardFunction (Tensor.arr ⟨[2], [1, 2]⟩) (1 / 2) (column [10, 20]) (column [false, false])
    pure (y.rshape, [y.get [0, 0], y.get [1, 0], y.get [0, 1], y.get [1, 1]])) = Except.ok ([2, 2], [6, 7, 11, 12]) := by decide +kernel

/-- Terminal flags stored as tensors of shape `[1]` (which the transition class accepts too) make squares as well: row `i` has the reward and next
value of transition `i` with the flag of every transition `j`. -/
theorem C138_violated_terminal (rs vs : List ℚ) (ts : List Bool) (γ : ℚ) (hv : vs.length = rs.length) (ht : ts.length = rs.length) :
    ∃ y, rewardFunction (column rs) γ (column vs) (Tensor.arr ⟨[ts.length], ts⟩) = .ok y ∧ y.rshape = [rs.length, rs.length] ∧
      ∀ i < rs.length, ∀ j < rs.length, y.get [j, i] = bellman (rs.getD i default) γ (vs.getD i default) (ts.getD j default) := by
  generalize hn : rs.length = n at *
  have hs1 : bshape [n] [1, n] = some [n, n] := by
    simp only [bshape]
    split
    · rfl
    · rfl
  have hs : bshape [1, n] [n, n] = some [n, n] := by
    by_cases h : n = 1 <;> simp [bshape, h]
  unfold rewardFunction Arr.op
  simp only [Arr.map, column_shape, hv, hn]
  rw [show (Tensor.arr ⟨[ts.length], ts⟩ : Arr Bool).rshape = [ts.length] from rfl, ht, hs1]
  simp only [hs]
  refine ⟨_, rfl, rfl, ?_⟩
  intro i hi j hj
  have hi' : (if n = 1 then 0 else i) = i := by split <;> omega
  have hj' : (if n = 1 then 0 else j) = j := by split <;> omega
  simp only [bindex, hi', hj', if_true, column_get]
  rw [show (Tensor.arr ⟨[n], ts⟩ : Arr Bool).get [j] = ts.getD j default by simp [Tensor.arr, flatIndex]]
  exact factor _ _ _ _

/-- C138 is violated. -/
theorem C138_violated : ¬ C138_full := by
  intro h
  obtain ⟨r, y, h1, h2, s, hs, h3⟩ := h (fun r => .tensor ⟨[1], [r]⟩) [1, 2] [0, 0] [false, false] 1 (.tensor [] rfl) (by simp) rfl rfl
  obtain ⟨r', y', h1', h2', hs', h3'⟩ := C138_violated_flat [1, 2] [0, 0] [false, false] 1 (by simp) rfl rfl
  rw [h1] at h1'
  cases h1'
  rw [h2] at h2'
  cases h2'
  have a := h3 [1] 0 (by rw [hs']; decide)
  have b := h3' 0 (by simp) 1 (by simp)
  rw [List.singleton_append, b] at a
  revert a
  decide +kernel

/-! What the squares do to the training -/

theorem square_sum (n : Nat) (f : List Nat → ℚ) :
    ((positions [n, n]).map f).sum = ((List.range n).map fun i => ((List.range n).map fun j => f [j, i]).sum).sum := by
  have e1 : positions [n] = (List.range n).map fun i => [i] := by
    simp [positions]
  have e : positions [n, n] = (List.range n).flatMap fun i => (List.range n).map fun j => [j, i] := by
    rw [positions, e1, List.flatMap_map]
  rw [e]
  generalize List.range n = l
  suffices ∀ l' : List Nat, ((l'.flatMap fun i => l.map fun j => [j, i]).map f).sum = (l'.map fun i => (l.map fun j => f [j, i]).sum).sum from this l
  intro l'
  induction l' with
  | nil => rfl
  | cons a l' ih =>
    rw [List.flatMap_cons, List.map_append, List.sum_append, ih, List.map_map, List.map_cons, List.sum_cons]
    rfl

private theorem sum_le (l : List Nat) (f g : Nat → ℚ) (h : ∀ i ∈ l, f i ≤ g i) : (l.map f).sum ≤ (l.map g).sum := by
  induction l with
  | nil => simp
  | cons a l ih =>
    simp only [List.map_cons, List.sum_cons]
    exact add_le_add (h a (by simp)) (ih fun i hi => h i (by simp [hi]))

private theorem eq_of_sum_le (l : List Nat) (f g : Nat → ℚ) (h : ∀ i ∈ l, f i ≤ g i) (hle : (l.map g).sum ≤ (l.map f).sum) :
    ∀ i ∈ l, f i = g i := by
  induction l with
  | nil => simp
  | cons a l ih =>
    simp only [List.map_cons, List.sum_cons] at hle
    have h1 := h a (by simp)
    have h2 := sum_le l f g fun i hi => h i (by simp [hi])
    intro i hi
    rcases List.mem_cons.1 hi with rfl | hi
    · linarith
    · exact ih (fun i hi => h i (by simp [hi])) (by linarith) i hi

/-- The consequence: with rewards stored as tensors of shape `[1]`, the sum of squared differences is least for exactly those values of the
transitions that belong to the average reward of the batch; the reward of a transition itself does not count. -/
theorem C138_violated_loss (rs vs : List ℚ) (ts : List Bool) (γ : ℚ) (hne : rs ≠ []) (hv : vs.length = rs.length) (ht : ts.length = rs.length) :
    ∃ r y, makeTensor (rs.map fun r => Item.tensor ⟨[1], [r]⟩) true = .ok (.tensor r) ∧
      rewardFunction r.arr γ (column vs) (column ts) = .ok y ∧
      ∀ q : List ℚ, q.length = rs.length → ∃ l, sumSquares (column q) y = .ok l ∧
        ((∀ q' : List ℚ, q'.length = rs.length → ∀ l', sumSquares (column q') y = .ok l' → l ≤ l') ↔
          ∀ i < rs.length, q.getD i default = bellman (average rs) γ (vs.getD i default) (ts.getD i default)) := by
  obtain ⟨r, y, h1, h2, hs, hy⟩ := C138_violated_flat rs vs ts γ hne hv ht
  refine ⟨r, y, h1, h2, ?_⟩
  generalize hn : rs.length = n at *
  have hpos : 0 < n := by rw [← hn]; exact List.length_pos_iff.2 hne
  have hb : bshape [1, n] [n, n] = some [n, n] := by
    by_cases h : n = 1 <;> simp [bshape, h]
  have hloss : ∀ q : List ℚ, q.length = n → sumSquares (column q) y =
      .ok ((List.range n).map fun i => ((List.range n).map fun j => (q.getD i default - y.get [j, i]) ^ 2).sum).sum := by
    intro q hq
    unfold sumSquares Arr.op
    simp only [column_shape, hq, hs, hb]
    rw [square_sum]
    congr 1
    congr 1
    apply List.map_congr_left
    intro i hi
    congr 1
    apply List.map_congr_left
    intro j hj
    have hi := List.mem_range.1 hi
    have hj := List.mem_range.1 hj
    have hi' : (if n = 1 then 0 else i) = i := by split <;> omega
    have hj' : (if n = 1 then 0 else j) = j := by split <;> omega
    simp only [bindex, hi', hj', if_true, column_get]
  have hmean : ∀ i < n, ((List.range n).map fun j => y.get [j, i]).sum / n = bellman (average rs) γ (vs.getD i default) (ts.getD i default) := by
    intro i hi
    have e : ∀ c : ℚ, ((List.range n).map fun j => rs.getD j default + c).sum = rs.sum + n * c := by
      intro c
      rw [← hn]
      clear hloss hb hs hy h1 h2 hn hpos hne hv ht
      induction rs with
      | nil => simp
      | cons a rs ih =>
        rw [List.length_cons, List.range_succ_eq_map, List.map_cons, List.map_map, List.sum_cons, List.sum_cons]
        have : ((fun j => (a :: rs).getD j default + c) ∘ Nat.succ) = fun j => rs.getD j default + c := by funext j; simp
        rw [this, ih]
        push_cast
        simp
        ring
    have hn' : (n : ℚ) ≠ 0 := by exact_mod_cast (by omega : n ≠ 0)
    have : ((List.range n).map fun j => y.get [j, i]) = (List.range n).map fun j => rs.getD j default +
        (if ts.getD i default then 0 else γ * vs.getD i default) := by
      apply List.map_congr_left
      intro j hj
      rw [hy i hi j (List.mem_range.1 hj), bellman]
      split <;> simp
    rw [this, e, add_div, mul_div_cancel_left₀ _ hn', bellman, average, hn]
    split <;> simp
  intro q hq
  refine ⟨_, hloss q hq, ?_⟩
  have hsplit : ∀ q : List ℚ, ∀ i, ((List.range n).map fun j => (q.getD i default - y.get [j, i]) ^ 2).sum =
      ((List.range n).map fun j => (((List.range n).map fun j => y.get [j, i]).sum / n - y.get [j, i]) ^ 2).sum +
        n * (q.getD i default - ((List.range n).map fun j => y.get [j, i]).sum / n) ^ 2 :=
    fun q i => sum_sq (fun j => y.get [j, i]) n hpos _
  have hn0 : (0 : ℚ) < n := by exact_mod_cast hpos
  constructor
  · intro hmin
    let q' : List ℚ := (List.range n).map fun i => bellman (average rs) γ (vs.getD i default) (ts.getD i default)
    have hq' : ∀ i < n, q'.getD i default = bellman (average rs) γ (vs.getD i default) (ts.getD i default) := by
      intro i hi
      simp [q', List.getD_eq_getElem?_getD, hi]
    have hle := hmin q' (by simp [q']) _ (hloss q' (by simp [q']))
    have key := eq_of_sum_le (List.range n)
      (fun i => ((List.range n).map fun j => (q'.getD i default - y.get [j, i]) ^ 2).sum)
      (fun i => ((List.range n).map fun j => (q.getD i default - y.get [j, i]) ^ 2).sum) (by
        intro i hi
        have hi := List.mem_range.1 hi
        rw [hsplit q i, hsplit q' i, hmean i hi, hq' i hi, sub_self]
        have := sq_nonneg (q.getD i default - bellman (average rs) γ (vs.getD i default) (ts.getD i default))
        have := mul_nonneg hn0.le this
        linarith) hle
    intro i hi
    have := key i (List.mem_range.2 hi)
    rw [hsplit q i, hsplit q' i, hmean i hi, hq' i hi, sub_self] at this
    have h0 : (n : ℚ) * (q.getD i default - bellman (average rs) γ (vs.getD i default) (ts.getD i default)) ^ 2 = 0 := by linarith
    rcases mul_eq_zero.1 h0 with h0 | h0
    · exact absurd h0 hn0.ne'
    · exact sub_eq_zero.1 (pow_eq_zero_iff (two_ne_zero) |>.1 h0)
  · intro heq q' hq' l' hl'
    rw [hloss q' hq'] at hl'
    cases hl'
    apply sum_le
    intro i hi
    have hi := List.mem_range.1 hi
    rw [hsplit q i, hsplit q' i, hmean i hi, heq i hi, sub_self]
    have := sq_nonneg (q'.getD i default - bellman (average rs) γ (vs.getD i default) (ts.getD i default))
    have := mul_nonneg hn0.le this
    linarith

example : average [1, 3] = 2 ∧ sumSquares (column [2, 2]) (Tensor.arr ⟨[2, 2], [1, 3, 1, 3]⟩) = .ok 4 ∧
    sumSquares (column [1, 3]) (Tensor.arr ⟨[2, 2], [1, 3, 1, 3]⟩) = .ok 8 := by decide +kernel

end Machin.Batch
