import Mathlib.Tactic.Linarith
import Mathlib.Tactic.NormNum
import Mathlib.Tactic.Ring
import Mathlib.Algebra.BigOperators.Group.List.Basic
import Verif.Assign.Model

/-!
# Properties of the model assigner: C116, C117, C118
-/

namespace Machin.Assign

/-! ## C116: the estimated size of a model -/

/-- The specification: bytes of one element. -/
def elementBytes : Dtype → Nat
  | .int8 | .uint8 | .bool => 1
  | .int16 | .float16 | .bfloat16 => 2
  | .int32 | .float32 | .complex32 => 4
  | .int64 | .float64 | .complex64 => 8
  | .complex128 => 16

/-- The specification: bytes of a tensor. -/
def Tens.bytes (x : Tens) : Nat := x.shape.prod * elementBytes x.dtype

/-- C116, full statement: the estimate is the number of bytes of all parameters and buffers, in megabytes, times the multiplier. -/
def C116_full : Prop :=
  ∀ (params buffers : List Tens) (mult : ℚ),
    estimateSize params buffers mult = .ok (((params ++ buffers).map Tens.bytes).sum / 1024 ^ 2 * mult)

/-- The types for which the table is right. -/
def plain : Dtype → Bool
  | .complex32 | .bfloat16 | .complex64 | .complex128 => false
  | _ => true

private theorem widths_plain (l : List Tens) (h : ∀ x ∈ l, plain x.dtype = true) : widths l = .ok (l.map (fun x => elementBytes x.dtype)) := by
  induction l with
  | nil => rfl
  | cons x l ih =>
    have hx := h x (by simp)
    rw [widths, ih (fun y hy => h y (by simp [hy]))]
    have : dtypeBytes x.dtype = .ok (elementBytes x.dtype) := by
      revert hx; cases x.dtype <;> simp [plain, dtypeBytes, elementBytes]
    rw [this]; rfl

private theorem sizes_plain (l : List Tens) (h : ∀ x ∈ l, plain x.dtype = true) : sizesMb l = .ok ((l.map Tens.bytes).sum / 1024 ^ 2) := by
  rw [sizesMb, widths_plain l h]
  have : List.zipWith (fun (x : Tens) b => x.shape.prod * b) l (l.map (fun x => elementBytes x.dtype)) = l.map Tens.bytes := by
    induction l with
    | nil => rfl
    | cons x l ih => simp [Tens.bytes, ih (fun y hy => h y (by simp [hy]))]
  simp only [this]

/-- C116, what holds: the estimate is right for models of integers, booleans and the usual floating point types. -/
theorem C116_size_partial (params buffers : List Tens) (mult : ℚ) (h : ∀ x ∈ params ++ buffers, plain x.dtype = true) :
    estimateSize params buffers mult = .ok (((params ++ buffers).map Tens.bytes).sum / 1024 ^ 2 * mult) := by
  rw [estimateSize, sizes_plain params (fun x hx => h x (by simp [hx])), sizes_plain buffers (fun x hx => h x (by simp [hx]))]
  simp only [Except.ok.injEq, List.map_append, List.sum_append, Nat.cast_add]
  ring

example : estimateSize [⟨[1024, 1024], .float32⟩, ⟨[], .int8⟩] [⟨[2, 512], .float64⟩] 2 = .ok ((4194304 + 1 + 8192) / 1048576 * 2) := by
  decide +kernel

/-- The table gives twice the size of a `complex32` element. -/
theorem C116_violated_complex (shape : List Nat) :
    estimateSize [⟨shape, .complex32⟩] [] 1 = .ok (2 * ((Tens.bytes ⟨shape, .complex32⟩ : Nat) / 1024 ^ 2)) := by
  simp [estimateSize, sizesMb, widths, dtypeBytes, Tens.bytes, elementBytes]
  ring

/-- Models with parameters of types `bfloat16`, `complex64` or `complex128` cannot be estimated. -/
theorem C116_violated_refused (x : Tens) (l buffers : List Tens) (mult : ℚ) (h : x.dtype = .bfloat16 ∨ x.dtype = .complex64 ∨ x.dtype = .complex128) :
    estimateSize (x :: l) buffers mult = .error .value := by
  rcases h with h | h | h <;> simp [estimateSize, sizesMb, widths, dtypeBytes, h]

/-- C116 is violated. -/
theorem C116_violated : ¬ C116_full := by
  intro h
  have := h [⟨[1], .bfloat16⟩] [] 1
  rw [C116_violated_refused _ _ _ _ (by simp)] at this
  simp at this

/-! ## C117: devices and capacities -/

/-- The specification: the total size of the models on device number `d`, if model `i` is on device `f i`. -/
def loadOn (sizes : List ℚ) (f : Nat → Nat) (d : Nat) : ℚ :=
  ((List.range sizes.length).map (fun i => if f i = d then sizes.getD i 0 else 0)).sum

/-- C117, full statement: if the size check passes, the models can be placed so that no device gets more than its capacity; and a GPU given without
index stands for an available one. -/
def C117_full : Prop :=
  (∀ (sizes caps : List ℚ), (∀ s ∈ sizes, 0 < s) → (∀ c ∈ caps, 0 < c) → sizeCheck sizes caps = .ok () →
    ∃ f : Nat → Nat, (∀ i < sizes.length, f i < caps.length) ∧ ∀ d < caps.length, loadOn sizes f d ≤ caps.getD d 0) ∧
  (∀ (avail : List Nat), avail ≠ [] → ∃ i ∈ avail, usedDevices avail (some [.cuda none]) = [.cuda (some i)])

/-- Only totals are compared: two models of size `s` on two devices with room for `c₁ < s` and `c₂ < 2 s` pass if `c₁ + c₂` is at least `2 s`, but
every placement overfills a device. -/
theorem C117_violated_capacity (s c₁ c₂ : ℚ) (h1 : c₁ < s) (h2 : c₂ < 2 * s) (h3 : 2 * s ≤ c₁ + c₂) :
    sizeCheck [s, s] [c₁, c₂] = .ok () ∧
    ∀ f : Nat → Nat, (∀ i < 2, f i < 2) → ∃ d < 2, [c₁, c₂].getD d 0 < loadOn [s, s] f d := by
  constructor
  · simp only [sizeCheck, List.sum_cons, List.sum_nil, add_zero]
    rw [if_neg]
    linarith
  · intro f hf
    have e0 : loadOn [s, s] f 0 = (if f 0 = 0 then s else 0) + (if f 1 = 0 then s else 0) := by
      simp [loadOn, List.range_succ]
    have e1 : loadOn [s, s] f 1 = (if f 0 = 1 then s else 0) + (if f 1 = 1 then s else 0) := by
      simp [loadOn, List.range_succ]
    have f0 := hf 0 (by norm_num)
    have f1 := hf 1 (by norm_num)
    by_cases h0 : f 0 = 0
    · refine ⟨0, by norm_num, ?_⟩
      rw [e0, if_pos h0]
      simp only [List.getD_cons_zero]
      split <;> linarith
    · by_cases h0' : f 1 = 0
      · refine ⟨0, by norm_num, ?_⟩
        rw [e0, if_pos h0']
        simp only [List.getD_cons_zero]
        split <;> linarith
      · refine ⟨1, by norm_num, ?_⟩
        rw [e1, if_pos (by omega), if_pos (by omega)]
        simp only [List.getD_cons_succ, List.getD_cons_zero]
        linarith

example : sizeCheck [3, 3] [2, 4] = .ok () := by decide +kernel

/-- The device "cuda" is thrown out, whatever GPUs are available, and the processor is used. -/
theorem C117_violated_index (avail : List Nat) : usedDevices avail (some [.cuda none]) = [.cpu] := by
  simp [usedDevices]

/-- C117 is violated. -/
theorem C117_violated : ¬ C117_full := by
  rintro ⟨h, _⟩
  obtain ⟨h1, h2⟩ := C117_violated_capacity 3 2 4 (by norm_num) (by norm_num) (by norm_num)
  obtain ⟨f, hf, hl⟩ := h [3, 3] [2, 4] (by simp) (by simp) h1
  obtain ⟨d, hd, hlt⟩ := h2 f hf
  exact absurd (hl d hd) (not_le.2 hlt)

/-- C117, what holds. The devices used are never empty and are given (or all available GPUs if none were given), available GPUs or the processor, and
every given device of these kinds is kept in order; if nothing is left, the processor is used. The check refuses exactly the models whose
total size exceeds the total capacity. -/
theorem C117_devices_partial (avail : List Nat) (given : Option (List Dev)) (sizes caps : List ℚ) :
    usedDevices avail given ≠ [] ∧
    (∀ d ∈ usedDevices avail given, d = .cpu ∨ ∃ i ∈ avail, d = .cuda (some i)) ∧
    (∀ l, given = some l → (∃ d ∈ l, d = .cpu ∨ ∃ i ∈ avail, d = .cuda (some i)) →
      (usedDevices avail given).Sublist l ∧ ∀ d ∈ l, (d = .cpu ∨ ∃ i ∈ avail, d = .cuda (some i)) → d ∈ usedDevices avail given) ∧
    (given = none → avail ≠ [] → usedDevices avail given = avail.map (fun i => .cuda (some i))) ∧
    (sizeCheck sizes caps = .error .runtime ↔ caps.sum < sizes.sum) ∧
    (sizeCheck sizes caps = .ok () ↔ sizes.sum ≤ caps.sum) := by
  have hfilter : ∀ (l : List Dev) (d : Dev), d ∈ l.filter (fun d => match d with
      | .cpu => true
      | .cuda _ => decide (d ∈ avail.map (fun i => Dev.cuda (some i)))) ↔ d ∈ l ∧ (d = .cpu ∨ ∃ i ∈ avail, d = .cuda (some i)) := by
    intro l d
    rw [List.mem_filter]
    cases d with
    | cpu => simp
    | cuda i => simp [eq_comm]
  refine ⟨?_, ?_, ?_, ?_, ?_, ?_⟩
  · unfold usedDevices
    dsimp only
    split
    · simp
    · assumption
  · intro d hd
    unfold usedDevices at hd
    dsimp only at hd
    split at hd
    · simp at hd; exact Or.inl hd
    · cases given with
      | none =>
        simp only [List.mem_map] at hd
        obtain ⟨i, hi, rfl⟩ := hd
        exact Or.inr ⟨i, hi, rfl⟩
      | some l => exact ((hfilter l d).1 hd).2
  · rintro l rfl ⟨d₀, hd₀, hok⟩
    have hne := List.ne_nil_of_mem ((hfilter l d₀).2 ⟨hd₀, hok⟩)
    have e : usedDevices avail (some l) = l.filter (fun d => match d with
      | .cpu => true
      | .cuda _ => decide (d ∈ avail.map (fun i => Dev.cuda (some i)))) := by
      unfold usedDevices
      dsimp only
      split
      · rename_i hh; exact absurd hh hne
      · rfl
    rw [e]
    exact ⟨List.filter_sublist, fun d hd hk => (hfilter l d).2 ⟨hd, hk⟩⟩
  · rintro rfl hne
    unfold usedDevices
    dsimp only
    split
    · rename_i hh; simp at hh; exact absurd hh hne
    · rfl
  · unfold sizeCheck; split <;> simp_all
  · unfold sizeCheck
    split
    · rename_i h; simp [not_le.2 h]
    · rename_i h; simp [not_lt.1 h]

/-- The matrix of distances is symmetric and zero on the diagonal; different devices have the distance of their kinds. -/
theorem C117_distance_partial (gg cg : ℚ) (devs : List Dev) (i j : Nat) :
    devDistance gg cg devs i j = devDistance gg cg devs j i ∧ devDistance gg cg devs i i = 0 ∧
    ∀ a b, i ≠ j → devs[i]? = some a → devs[j]? = some b →
      devDistance gg cg devs i j = (match a, b with
        | .cpu, .cpu => 0
        | .cuda x, .cuda y => if x = y then 0 else gg
        | _, _ => cg) := by
  have sym : ∀ a b, pairDist gg cg a b = pairDist gg cg b a := by
    intro a b
    cases a <;> cases b <;> simp [pairDist, eq_comm]
  refine ⟨?_, by simp [devDistance], ?_⟩
  · unfold devDistance
    rcases lt_trichotomy i j with h | h | h
    · simp [h, not_lt.2 h.le]
    · simp [h]
    · simp [h, not_lt.2 h.le]
  · intro a b hne ha hb
    unfold devDistance
    rcases lt_or_gt_of_ne hne with h | h
    · rw [if_neg (not_lt.2 h.le)]
      dsimp only
      rw [if_neg (by omega), ha, hb]
      dsimp only
      rw [sym]
      cases a <;> cases b <;> simp [pairDist]
      split <;> simp_all
    · rw [if_pos h]
      dsimp only
      rw [if_neg (by omega), ha, hb]
      dsimp only
      cases a <;> cases b <;> simp [pairDist]
      split <;> simp_all

example : devDistance 1 10 [.cuda (some 0), .cuda (some 1), .cpu] 0 2 = 10 := by decide +kernel

/-- The matrix of connections: the weight given last for the ordered pair, zero without any. -/
theorem C117_connection_partial (i j : Nat) :
    (∀ conns : List ((Nat × Nat) × ℚ), (∀ c ∈ conns, c.1 ≠ (i, j)) → modelConn conns i j = 0) ∧
    ∀ (pre post : List ((Nat × Nat) × ℚ)) (w : ℚ), (∀ c ∈ post, c.1 ≠ (i, j)) → modelConn (pre ++ ((i, j), w) :: post) i j = w := by
  have key : ∀ (conns : List ((Nat × Nat) × ℚ)) (acc : ℚ), (∀ c ∈ conns, c.1 ≠ (i, j)) →
      conns.foldl (fun acc c => if c.1 = (i, j) then c.2 else acc) acc = acc := by
    intro conns
    induction conns with
    | nil => intro acc _; rfl
    | cons c cs ih =>
      intro acc h
      rw [List.foldl_cons, if_neg (h c (by simp))]
      exact ih acc fun d hd => h d (by simp [hd])
  refine ⟨fun conns h => key conns 0 h, ?_⟩
  intro pre post w h
  unfold modelConn
  rw [List.foldl_append, List.foldl_cons, if_pos rfl]
  exact key post w h

example : modelConn [((0, 1), 2), ((1, 0), 3), ((0, 1), 5)] 0 1 = 5 ∧ modelConn [((0, 1), 2), ((1, 0), 3), ((0, 1), 5)] 1 0 = 3 := by decide +kernel

/-! ## C118: the placement is found by minimising a number -/

private theorem oadd_none (a : Option ℚ) : oadd none a = none := by cases a <;> rfl
private theorem omul_none (a : Option ℚ) : omul none a = none := by cases a <;> rfl
private theorem omul_none' (a : Option ℚ) : omul a none = none := by cases a <;> rfl

private theorem osum_none (l : List (Option ℚ)) (h : none ∈ l) : osum l = none := by
  induction l with
  | nil => simp at h
  | cons a l ih =>
    rcases List.mem_cons.1 h with h | h
    · rw [← h, osum, oadd_none]
    · rw [osum, ih h]; cases a <;> rfl

private theorem allNum_none (l : List (Option ℚ)) (h : none ∈ l) : allNum l = none := by
  induction l with
  | nil => simp at h
  | cons a l ih =>
    cases a with
    | none => rfl
    | some a =>
      have h : none ∈ l := by simpa using h
      rw [allNum, ih h]; rfl

/-- C118, full statement: the entries of the placement stay numbers as long as softmax, its derivative, the optimizer and the other costs give
numbers. -/
def C118_full : Prop :=
  ∀ (soft : List ℚ → Nat → ℚ) (back : List ℚ → List ℚ → Nat → ℚ) (adam : Nat → ℚ → ℚ → ℚ) (rest : Mat → Mat) (weight : ℚ)
    (n : Nat) (conns : List ((Nat × Nat) × ℚ)) (gg cg : ℚ) (devs : List Dev) (iterations : Nat) (x : Mat),
    (∀ p i j, rest p i j ≠ none) → (∀ i j, x i j ≠ none) → 0 < gg → 0 < cg →
    ∀ i < n, ∀ j < devs.length,
      optimizeLoop soft back adam rest weight n devs.length (modelConn conns) (devDistance gg cg devs) iterations x i j ≠ none

/-- Once no entry of the first row is a number, all models get the first device. -/
private theorem argmax_none (l : List (Option ℚ)) : argmax (none :: l) = 0 := by
  suffices ∀ k, argmaxFrom 0 none k l = 0 from this 1
  induction l with
  | nil => intro k; rfl
  | cons a l ih => intro k; rw [argmaxFrom]; simpa [better] using ih _

private theorem range_all_none (m : Nat) (hm : 0 < m) (x : Mat) (i : Nat) (h : ∀ j < m, x i j = none) : none ∈ row m x i := by
  unfold row
  exact List.mem_map.2 ⟨0, List.mem_range.2 hm, h 0 hm⟩

private theorem conn_nil (n i j : Nat) : normed n (modelConn []) i j = none := by
  have e : modelConn [] = fun _ _ => 0 := by funext a b; rfl
  simp [normed, e]

/-- One iteration with a normalised connection matrix that is no number anywhere. -/
private theorem optimize_none (soft : List ℚ → Nat → ℚ) (back : List ℚ → List ℚ → Nat → ℚ) (adam : ℚ → ℚ → ℚ) (rest : Mat → Mat) (weight : ℚ)
    (n m : Nat) (conn dist : Nat → Nat → ℚ) (x : Mat) (hn : 2 ≤ n) (hm : 0 < m) (hw : ∀ i j, normed n conn i j = none) (i j : Nat) (hj : j < m) :
    optimize soft back adam rest weight n m conn dist x i j = none := by
  have hg : none ∈ row m (fun i j => oadd (connGrad weight n m (normed n conn) (normed m dist) (softmaxMat soft m x) i j)
      (rest (softmaxMat soft m x) i j)) i := by
    refine List.mem_map.2 ⟨j, List.mem_range.2 hj, ?_⟩
    have : connGrad weight n m (normed n conn) (normed m dist) (softmaxMat soft m x) i j = none := by
      unfold connGrad
      rw [osum_none, omul_none']
      refine List.mem_map.2 ⟨if i = 0 then 1 else 0, ?_, ?_⟩
      · rw [List.mem_filter, List.mem_range]
        split <;> simp <;> omega
      · apply osum_none
        refine List.mem_map.2 ⟨0, List.mem_range.2 hm, ?_⟩
        rw [hw, omul_none, omul_none, oadd_none]
    dsimp only
    rw [this, oadd_none]
  simp only [optimize, allNum_none _ hg]
  cases allNum (row m (softmaxMat soft m x) i) <;> rfl

/-- Without connections (two models or more) the placement is no number after the first iteration, and every model is assigned to the first
device, whatever the sizes, the capacities and the weights. -/
theorem C118_violated_unconnected (avail : List Nat) (given : Option (List Dev)) (sizes : List ℚ) (caps : List Dev → List ℚ) (gg cg : ℚ)
    (soft : List ℚ → Nat → ℚ) (back : List ℚ → List ℚ → Nat → ℚ) (adam : Nat → ℚ → ℚ → ℚ) (rest : Mat → Mat) (weight : ℚ)
    (iterations : Nat) (start : Mat) (hn : 2 ≤ sizes.length) (hc : sizes.sum ≤ (caps (usedDevices avail given)).sum) :
    ∃ d, (usedDevices avail given)[0]? = some d ∧
      assign avail given sizes caps [] gg cg soft back adam rest weight (iterations + 1) start = .ok (List.replicate sizes.length d) := by
  have hne := (C117_devices_partial avail given sizes (caps (usedDevices avail given))).1
  have hck := (C117_devices_partial avail given sizes (caps (usedDevices avail given))).2.2.2.2.2.2 hc
  simp only [assign, hck]
  generalize hdv : usedDevices avail given = devs at *
  obtain ⟨d, ds, rfl⟩ := List.exists_cons_of_ne_nil hne
  refine ⟨d, rfl, ?_⟩
  set m := (d :: ds).length with hmdef
  have hm : 0 < m := by simp [hmdef]
  have hw : ∀ i j, normed sizes.length (modelConn []) i j = none := by
    exact conn_nil sizes.length
  have hall : ∀ (k : Nat) (x : Mat) (i j : Nat), j < m →
      optimizeLoop soft back adam rest weight sizes.length m (modelConn []) (devDistance gg cg (d :: ds)) (k + 1) x i j = none := by
    intro k
    induction k with
    | zero =>
      intro x i j hj
      exact optimize_none soft back (adam 0) rest weight _ m _ _ x hn hm hw i j hj
    | succ k ih =>
      intro x i j hj
      rw [optimizeLoop]
      exact ih _ i j hj
  have hx : ∀ i, argmax (row m (optimizeLoop soft back adam rest weight sizes.length m (modelConn []) (devDistance gg cg (d :: ds))
      (iterations + 1) start) i) = 0 := by
    intro i
    have : row m (optimizeLoop soft back adam rest weight sizes.length m (modelConn []) (devDistance gg cg (d :: ds))
      (iterations + 1) start) i = List.replicate m none := by
      unfold row
      rw [List.eq_replicate_iff]
      refine ⟨by simp, ?_⟩
      intro b hb
      obtain ⟨j, hj, rfl⟩ := List.mem_map.1 hb
      exact hall _ _ _ _ (List.mem_range.1 hj)
    rw [this]
    obtain ⟨m', hm'⟩ : ∃ m', m = m' + 1 := ⟨m - 1, by omega⟩
    rw [hm', List.replicate_succ, argmax_none]
  unfold assignment
  rw [← hmdef]
  simp only [hx, List.getElem?_cons_zero]
  generalize sizes.length = n
  have : ∀ l : List Nat, l.mapM (fun _ => (Except.ok d : Except Err Dev)) = .ok (List.replicate l.length d) := by
    intro l
    induction l with
    | nil => rfl
    | cons a l ih => rw [List.mapM_cons, ih]; rfl
  rw [this]
  simp

/-- Three models of size 10 on GPUs with room for 11 and 100, without connections: all are placed on the small GPU. -/
example : ∃ d, (usedDevices [0, 1] none)[0]? = some d ∧
    assign [0, 1] none [10, 10, 10] (fun _ => [11, 100]) [] 1 10 (fun _ _ => 1 / 2) (fun _ _ _ => 0) (fun _ v _ => v) (fun _ _ _ => some 0) 2 500
      (fun _ _ => some 0) = .ok (List.replicate 3 d) :=
  C118_violated_unconnected _ _ [10, 10, 10] _ _ _ _ _ _ _ _ 499 _ (by decide) (by decide +kernel)

/-- C118 is violated. -/
theorem C118_violated : ¬ C118_full := by
  intro h
  have := h (fun _ _ => 1) (fun _ _ _ => 0) (fun _ v _ => v) (fun _ _ _ => some 0) 1 2 [] 1 10 [.cuda (some 0), .cuda (some 1)] 1
    (fun _ _ => some 0) (by simp) (by simp) (by norm_num) (by norm_num) 0 (by norm_num) 0 (by simp)
  apply this
  simp only [optimizeLoop]
  exact optimize_none _ _ _ _ _ 2 2 _ _ _ (by norm_num) (by norm_num) (conn_nil 2) 0 0 (by norm_num)

private theorem oadd_num {a b : Option ℚ} (ha : a ≠ none) (hb : b ≠ none) : oadd a b ≠ none := by
  cases a <;> cases b <;> simp_all [oadd]

private theorem omul_num {a b : Option ℚ} (ha : a ≠ none) (hb : b ≠ none) : omul a b ≠ none := by
  cases a <;> cases b <;> simp_all [omul]

private theorem osum_num (l : List (Option ℚ)) (h : ∀ a ∈ l, a ≠ none) : osum l ≠ none := by
  induction l with
  | nil => simp [osum]
  | cons a l ih => exact oadd_num (h a (by simp)) (ih (fun b hb => h b (by simp [hb])))

private theorem allNum_num (l : List (Option ℚ)) (h : ∀ a ∈ l, a ≠ none) : ∃ r, allNum l = some r := by
  induction l with
  | nil => exact ⟨[], rfl⟩
  | cons a l ih =>
    obtain ⟨r, hr⟩ := ih (fun b hb => h b (by simp [hb]))
    cases a with
    | none => exact absurd rfl (h none (by simp))
    | some a => exact ⟨a :: r, by simp [allNum, hr]⟩

/-- C118, what holds: if the sums of the connections and of the distances are not zero, the placement keeps consisting of numbers; and every model
is assigned to one of the devices used. -/
theorem C118_numbers_partial (soft : List ℚ → Nat → ℚ) (back : List ℚ → List ℚ → Nat → ℚ) (adam : Nat → ℚ → ℚ → ℚ) (rest : Mat → Mat)
    (weight : ℚ) (n m : Nat) (conn dist : Nat → Nat → ℚ) (iterations : Nat) (x : Mat)
    (hr : ∀ p i j, (∀ i j, p i j ≠ none) → rest p i j ≠ none) (hx : ∀ i j, x i j ≠ none)
    (hc : ((List.range n).map (fun a => ((List.range n).map (conn a)).sum)).sum ≠ 0)
    (hd : ((List.range m).map (fun a => ((List.range m).map (dist a)).sum)).sum ≠ 0) (i j : Nat) :
    optimizeLoop soft back adam rest weight n m conn dist iterations x i j ≠ none := by
  induction iterations generalizing x with
  | zero => exact hx i j
  | succ k ih =>
    rw [optimizeLoop]
    apply ih
    intro i j
    have hp : ∀ i j, softmaxMat soft m x i j ≠ none := by
      intro i j
      unfold softmaxMat
      obtain ⟨r, hr⟩ := allNum_num (row m x i) (by
        intro a ha
        obtain ⟨j, _, rfl⟩ := List.mem_map.1 ha
        exact hx i j)
      rw [hr]; simp
    have hw : ∀ i j, normed n conn i j ≠ none := by intro i j; simp [normed, hc]
    have hdd : ∀ i j, normed m dist i j ≠ none := by intro i j; simp [normed, hd]
    have hg : ∀ i j, connGrad weight n m (normed n conn) (normed m dist) (softmaxMat soft m x) i j ≠ none := by
      intro i j
      unfold connGrad
      refine omul_num (by simp) (osum_num _ ?_)
      intro a ha
      obtain ⟨k, _, rfl⟩ := List.mem_map.1 ha
      refine osum_num _ ?_
      intro b hb
      obtain ⟨l, _, rfl⟩ := List.mem_map.1 hb
      exact oadd_num (omul_num (omul_num (hw _ _) (hp _ _)) (hdd _ _)) (omul_num (omul_num (hw _ _) (hp _ _)) (hdd _ _))
    obtain ⟨r, hr1⟩ := allNum_num (row m (softmaxMat soft m x) i) (by
      intro a ha
      obtain ⟨j, _, rfl⟩ := List.mem_map.1 ha
      exact hp i j)
    obtain ⟨g, hg1⟩ := allNum_num (row m (fun i j => oadd (connGrad weight n m (normed n conn) (normed m dist) (softmaxMat soft m x) i j)
      (rest (softmaxMat soft m x) i j)) i) (by
      intro a ha
      obtain ⟨j, _, rfl⟩ := List.mem_map.1 ha
      exact oadd_num (hg i j) (hr _ i j hp))
    simp only [optimize, hr1, hg1]
    cases hv : x i j with
    | none => exact absurd hv (hx i j)
    | some v => simp

private theorem argmaxFrom_lt (l : List (Option ℚ)) : ∀ (best : Nat) (v : Option ℚ) (k : Nat), best < k → argmaxFrom best v k l < k + l.length := by
  induction l with
  | nil => intro best v k h; simpa [argmaxFrom] using h
  | cons x l ih =>
    intro best v k h
    rw [argmaxFrom]
    split
    · have := ih k x (k + 1) (by omega); simp; omega
    · have := ih best v (k + 1) (by omega); simp; omega

/-- Every model is assigned to one of the devices, whether the placement consists of numbers or not; models that do not fit in total are
refused. -/
theorem C118_total_partial (avail : List Nat) (given : Option (List Dev)) (sizes : List ℚ) (caps : List Dev → List ℚ)
    (conns : List ((Nat × Nat) × ℚ)) (gg cg : ℚ) (soft : List ℚ → Nat → ℚ) (back : List ℚ → List ℚ → Nat → ℚ) (adam : Nat → ℚ → ℚ → ℚ)
    (rest : Mat → Mat) (weight : ℚ) (iterations : Nat) (start : Mat) :
    (sizes.sum ≤ (caps (usedDevices avail given)).sum →
      ∃ l, assign avail given sizes caps conns gg cg soft back adam rest weight iterations start = .ok l ∧ l.length = sizes.length ∧
        ∀ d ∈ l, d ∈ usedDevices avail given) ∧
    ((caps (usedDevices avail given)).sum < sizes.sum →
      assign avail given sizes caps conns gg cg soft back adam rest weight iterations start = .error .runtime) := by
  have hne := (C117_devices_partial avail given sizes (caps (usedDevices avail given))).1
  constructor
  · intro hc
    have hck := (C117_devices_partial avail given sizes (caps (usedDevices avail given))).2.2.2.2.2.2 hc
    simp only [assign, hck]
    generalize usedDevices avail given = devs at *
    generalize optimizeLoop soft back adam rest weight sizes.length devs.length (modelConn conns) (devDistance gg cg devs) iterations start = x
    unfold assignment
    have hlt : ∀ i, argmax (row devs.length x i) < devs.length := by
      intro i
      have hl : (row devs.length x i).length = devs.length := by simp [row]
      have hpos : 0 < devs.length := List.length_pos_iff.2 hne
      generalize row devs.length x i = r at hl
      cases r with
      | nil => simp at hl; omega
      | cons a r =>
        have := argmaxFrom_lt r 0 a 1 (by omega)
        simp only [List.length_cons] at hl
        simp only [argmax]
        omega
    have key : ∀ is : List Nat, ∃ l, is.mapM (fun i => match devs[argmax (row devs.length x i)]? with
        | some d => (Except.ok d : Except Err Dev)
        | none => .error .index) = .ok l ∧ l.length = is.length ∧ ∀ d ∈ l, d ∈ devs := by
      intro is
      induction is with
      | nil => exact ⟨[], rfl, rfl, by simp⟩
      | cons i is ih =>
        obtain ⟨l, h1, h2, h3⟩ := ih
        refine ⟨devs[argmax (row devs.length x i)]'(hlt i) :: l, ?_, by simp [h2], ?_⟩
        · rw [List.mapM_cons, List.getElem?_eq_getElem (hlt i)]
          dsimp only
          rw [h1]; rfl
        · intro d hd
          rcases List.mem_cons.1 hd with rfl | hd
          · exact List.getElem_mem _
          · exact h3 d hd
    obtain ⟨l, h1, h2, h3⟩ := key (List.range sizes.length)
    exact ⟨l, h1, by simpa using h2, h3⟩
  · intro hc
    simp only [assign, (C117_devices_partial avail given sizes (caps (usedDevices avail given))).2.2.2.2.1.2 hc]

private theorem argmaxFrom_num (l : List (Option ℚ)) : ∀ (pre : List ℚ) (best : Nat) (v : ℚ), pre[best]? = some v →
    (∀ (j : Nat) (a : ℚ), pre[j]? = some a → a ≤ v) → (∀ (j : Nat) (a : ℚ), j < best → pre[j]? = some a → a < v) → ∀ vals : List ℚ, l = vals.map some →
    ∃ u, (pre ++ vals)[argmaxFrom best (some v) pre.length l]? = some u ∧ (∀ (j : Nat) (a : ℚ), (pre ++ vals)[j]? = some a → a ≤ u) ∧
      ∀ (j : Nat) (a : ℚ), j < argmaxFrom best (some v) pre.length l → (pre ++ vals)[j]? = some a → a < u := by
  induction l with
  | nil =>
    intro pre best v h1 h2 h3 vals hv
    obtain rfl : vals = [] := by simpa using hv.symm
    simp only [List.append_nil, argmaxFrom]
    exact ⟨v, h1, h2, h3⟩
  | cons x l ih =>
    intro pre best v h1 h2 h3 vals hv
    cases vals with
    | nil => simp at hv
    | cons w vals =>
      simp only [List.map_cons, List.cons.injEq] at hv
      obtain ⟨rfl, rfl⟩ := hv
      have e : pre ++ w :: vals = (pre ++ [w]) ++ vals := by simp
      have hlt : best < pre.length := (List.getElem?_eq_some_iff.1 h1).1
      have hsplit : ∀ (j : Nat) (a : ℚ), (pre ++ [w])[j]? = some a → pre[j]? = some a ∨ (j = pre.length ∧ a = w) := by
        intro j a h
        rcases Nat.lt_trichotomy j pre.length with hj | hj | hj
        · left; rwa [List.getElem?_append_left hj] at h
        · right; subst hj; simp at h; exact ⟨rfl, h.symm⟩
        · rw [List.getElem?_eq_none (by simp; omega)] at h; simp at h
      rw [argmaxFrom]
      by_cases hb : v < w
      · rw [if_pos (by simpa [better] using hb), e]
        have := ih (pre ++ [w]) pre.length w (by simp) ?_ ?_ vals rfl
        · simpa using this
        · intro j a h
          rcases hsplit j a h with h | ⟨_, rfl⟩
          · exact (h2 j a h).trans hb.le
          · exact le_rfl
        · intro j a hj h
          rw [List.getElem?_append_left hj] at h
          exact lt_of_le_of_lt (h2 j a h) hb
      · rw [if_neg (by simpa [better] using hb), e]
        have := ih (pre ++ [w]) best v (by rw [List.getElem?_append_left hlt]; exact h1) ?_ ?_ vals rfl
        · simpa using this
        · intro j a h
          rcases hsplit j a h with h | ⟨_, rfl⟩
          · exact h2 j a h
          · exact not_lt.1 hb
        · intro j a hj h
          rw [List.getElem?_append_left (by omega)] at h
          exact h3 j a hj h

/-- What is read from a placement of numbers: every model gets the first device with the largest entry of its row. -/
theorem C118_largest_partial (n : Nat) (devs : List Dev) (hd : devs ≠ []) (w : Nat → Nat → ℚ) :
    ∃ l, assignment n devs (fun i j => some (w i j)) = .ok l ∧ l.length = n ∧
      ∀ i < n, ∃ k < devs.length, l[i]? = devs[k]? ∧ (∀ j < devs.length, w i j ≤ w i k) ∧ ∀ j < k, w i j < w i k := by
  have hpos : 0 < devs.length := List.length_pos_iff.2 hd
  have key : ∀ i, ∃ k < devs.length, argmax (row devs.length (fun i j => some (w i j)) i) = k ∧
      (∀ j < devs.length, w i j ≤ w i k) ∧ ∀ j < k, w i j < w i k := by
    intro i
    obtain ⟨m, hm⟩ : ∃ m, devs.length = m + 1 := ⟨devs.length - 1, by omega⟩
    have hr : row devs.length (fun i j => some (w i j)) i = some (w i 0) :: (((List.range m).map fun j => w i (j + 1)).map some) := by
      rw [hm, row, List.range_succ_eq_map]
      simp
    have hall : ∀ (j : Nat) (a : ℚ), ([w i 0] ++ (List.range m).map fun j => w i (j + 1))[j]? = some a ↔ j < devs.length ∧ a = w i j := by
      intro j a
      rw [hm]
      cases j with
      | zero => simp [eq_comm]
      | succ j =>
        rw [List.singleton_append, List.getElem?_cons_succ, List.getElem?_map]
        by_cases hj : j < m
        · simp [hj, eq_comm]
        · rw [List.getElem?_eq_none (by simp; omega)]; simp; omega
    obtain ⟨u, h1, h2, h3⟩ := argmaxFrom_num _ [w i 0] 0 (w i 0) rfl (by
      intro j a h; cases j <;> simp_all) (by intro j a hj; omega) ((List.range m).map fun j => w i (j + 1)) rfl
    rw [hr, argmax]
    obtain ⟨hk, rfl⟩ := (hall _ _).1 h1
    exact ⟨_, hk, rfl, fun j hj => h2 j _ ((hall _ _).2 ⟨hj, rfl⟩), fun j hj => h3 j _ hj ((hall _ _).2 ⟨hj.trans hk, rfl⟩)⟩
  have hm : ∀ is : List Nat, is.mapM (fun i => match devs[argmax (row devs.length (fun i j => some (w i j)) i)]? with
      | some d => (Except.ok d : Except Err Dev)
      | none => .error .index) =
      .ok (is.map fun i => devs.getD (argmax (row devs.length (fun i j => some (w i j)) i)) .cpu) := by
    intro is
    induction is with
    | nil => rfl
    | cons i is ih =>
      obtain ⟨k, hk, e, _⟩ := key i
      rw [List.mapM_cons, ih, List.map_cons, e, List.getD_eq_getElem?_getD, List.getElem?_eq_getElem hk]
      rfl
  refine ⟨_, hm (List.range n), by simp, ?_⟩
  intro i hi
  obtain ⟨k, hk, e, h1, h2⟩ := key i
  refine ⟨k, hk, ?_, h1, h2⟩
  rw [List.getElem?_map, List.getElem?_range hi, Option.map_some, e, List.getD_eq_getElem?_getD, List.getElem?_eq_getElem hk]
  rfl

private theorem argmaxFrom_stays (l : List (Option ℚ)) : ∀ best k, argmaxFrom best none k l = best := by
  induction l with
  | nil => intro best k; rfl
  | cons a l ih => intro best k; rw [argmaxFrom]; simpa [better] using ih _ _

private theorem argmaxFrom_first (pre : List (Option ℚ)) (post : List (Option ℚ)) (hp : ∀ x ∈ pre, x ≠ none) : ∀ (best : Nat) (v : ℚ) (k : Nat),
    argmaxFrom best (some v) k (pre ++ none :: post) = k + pre.length := by
  induction pre with
  | nil =>
    intro best v k
    rw [List.nil_append, argmaxFrom, if_pos (by rfl), argmaxFrom_stays]
    rfl
  | cons x pre ih =>
    intro best v k
    obtain ⟨u, rfl⟩ := Option.ne_none_iff_exists'.1 (hp x (by simp))
    rw [List.cons_append, argmaxFrom]
    have ih := ih fun y hy => hp y (by simp [hy])
    split <;> rw [ih] <;> simp <;> omega

/-- What is read from a row with an entry that is not a number: the model gets the device of the first such entry, whatever the numbers are. -/
theorem C118_nan_partial (n : Nat) (devs : List Dev) (x : Mat) (i k : Nat) (hi : i < n) (hk : k < devs.length) (hx : x i k = none)
    (hl : ∀ j < k, x i j ≠ none) (l : List Dev) (h : assignment n devs x = .ok l) : l[i]? = devs[k]? := by
  have harg : argmax (row devs.length x i) = k := by
    have hr : row devs.length x i = (List.range k).map (x i) ++ none :: (List.range (devs.length - k - 1)).map (fun j => x i (k + 1 + j)) := by
      unfold row
      have e : List.range devs.length = List.range k ++ k :: (List.range (devs.length - k - 1)).map (k + 1 + ·) := by
        have e1 : devs.length = k + (1 + (devs.length - k - 1)) := by omega
        conv_lhs => rw [e1, List.range_add, List.range_add]
        simp [Nat.add_assoc]
      rw [e]
      simp [hx]
    rw [hr]
    cases k with
    | zero => exact argmaxFrom_stays _ _ _
    | succ k =>
      rw [List.range_succ_eq_map, List.map_cons, List.cons_append, argmax]
      obtain ⟨u, hu⟩ := Option.ne_none_iff_exists'.1 (hl 0 (by omega))
      rw [hu, argmaxFrom_first]
      · simp; omega
      · intro y hy
        simp only [List.map_map, List.mem_map, List.mem_range, Function.comp] at hy
        obtain ⟨j, hj, rfl⟩ := hy
        exact hl _ (by omega)
  unfold assignment at h
  have key : ∀ (is : List Nat) (l : List Dev), is.mapM (fun i => match devs[argmax (row devs.length x i)]? with
      | some d => (Except.ok d : Except Err Dev)
      | none => .error .index) = .ok l → ∀ t i : Nat, is[t]? = some i → l[t]? = devs[argmax (row devs.length x i)]? := by
    intro is
    induction is with
    | nil => intro l _ t i ht; simp at ht
    | cons a is ih =>
      intro l h t i ht
      rw [List.mapM_cons] at h
      cases hd : devs[argmax (row devs.length x a)]? with
      | none => rw [hd] at h; cases h
      | some d =>
        rw [hd] at h
        cases hm : is.mapM (fun i => match devs[argmax (row devs.length x i)]? with
            | some d => (Except.ok d : Except Err Dev)
            | none => .error .index) with
        | error e => rw [hm] at h; cases h
        | ok l' =>
          rw [hm] at h
          cases h
          cases t with
          | zero =>
            simp only [List.getElem?_cons_zero, Option.some.injEq] at ht
            subst ht
            simpa using hd.symm
          | succ t => simpa using ih l' hm t i (by simpa using ht)
  have := key _ l h i i (List.getElem?_range hi)
  rw [this, harg]

example : assignment 2 [.cpu, .cuda (some 0), .cuda (some 1)] (fun i j => some (if i = 0 then [1, 5, 5].getD j 0 else [2, 1, 0].getD j 0)) =
    .ok [.cuda (some 0), .cpu] := by decide +kernel

example : argmax [some 1, some 3, some 3, some 2] = 1 ∧ argmax [some 1, none, some 5] = 1 := by decide +kernel

end Machin.Assign
