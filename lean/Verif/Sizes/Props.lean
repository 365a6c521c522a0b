import Verif.Sizes.Lemmas
import Verif.Sizes.LemmasDepth
import Verif.Sizes.LemmasShares
import Verif.Dist.Model
import Verif.Ars.Model

/-! # C242: sizes computed with floating point numbers; C243: the shares of the members of a distributed buffer in double precision -/

namespace Machin.Sizes

open Spec Prio Prio.Spec

/-! ### C242 -/

/-- `_round_up(batch_size / p_num)` and the segment length of ARS: the least size that lets `p` members cover `n`. -/
theorem C242_round_up (n p : Nat) (hn : n < 2 ^ 53) (hp : 1 ≤ p) : LeastCover n p (roundUp double n p) := by
  rw [roundUp_double hn hp]
  exact cover_div hp

example : roundUp double 1000000 3 = 333334 := by decide +kernel

/-- `int(batch_size / sample_length)` and the pooling sizes: the number of full groups. -/
theorem C242_round_down (n p : Nat) (hn : n < 2 ^ 53) (hp : 1 ≤ p) : MostFull n p (roundDown double n p) := by
  rw [roundDown_double hn hp]
  exact full_div hp

example : roundDown double 1000000 3 = 333333 := by decide +kernel

/-- The bound is where it should be: above `2 ^ 53` half an item is lost or won in the quotient. -/
theorem C242_sharp :
    (roundUp double (2 ^ 53 + 1) 2 = 2 ^ 52 ∧ ¬ LeastCover (2 ^ 53 + 1) 2 (roundUp double (2 ^ 53 + 1) 2)) ∧
    (roundDown double (2 ^ 53 + 3) 2 = 2 ^ 52 + 2 ∧ ¬ MostFull (2 ^ 53 + 3) 2 (roundDown double (2 ^ 53 + 3) 2)) := by
  have h1 : roundUp double (2 ^ 53 + 1) 2 = 2 ^ 52 := by decide +kernel
  have h2 : roundDown double (2 ^ 53 + 3) 2 = 2 ^ 52 + 2 := by decide +kernel
  refine ⟨⟨h1, fun h => ?_⟩, h2, fun h => ?_⟩
  · have := h.1
    rw [h1] at this
    revert this
    decide
  · have := h.1
    rw [h2] at this
    revert this
    decide

/-- The sizes of the models of the uniform distributed buffer and of ARS, which use exact quotients, are those of the program. -/
theorem C242_models (n p : Nat) (hn : n < 2 ^ 53) (hp : 1 ≤ p) :
    roundUp double n p = Dist.localSize n p ∧ roundUp double n p = Ars.segmentLength n p := by
  rw [roundUp_double hn hp]
  refine ⟨?_, rfl⟩
  have h := cover_div (n := n) hp
  have hc : ⌈(n : ℚ) / p⌉ = (((n + p - 1) / p : Nat) : Int) := by
    have hp' : (0 : ℚ) < p := by exact_mod_cast hp
    apply le_antisymm
    · rw [Int.ceil_le, div_le_iff₀ hp']
      exact_mod_cast h.1
    · apply h.2
      have := Int.le_ceil ((n : ℚ) / p)
      rw [div_le_iff₀ hp'] at this
      exact_mod_cast this
  rw [Dist.localSize, hc]
  exact (Int.toNat_of_nonneg (Int.natCast_nonneg _)).symm

/-- The depth of the tree: with any logarithm that is monotone, exact on powers of two and off by at most one unit in the last place, it is the
least depth whose lowest level has room for all leaves, for all sizes up to `2 ^ 47`, and the one the model of the tree has. -/
theorem C242_depth (log2 : Nat → ℚ) (u : ℚ) (hl : Log2 log2 u) (hu : u ≤ 1 / 2 ^ 52) (size : Nat) (h1 : 1 ≤ size) (hs : size ≤ 2 ^ 47) :
    treeDepth log2 size = (WeightTree.new size).depth ∧
      ∃ k : Nat, treeDepth log2 size = k + 1 ∧ size ≤ 2 ^ k ∧ ∀ j, size ≤ 2 ^ j → k ≤ j := by
  unfold treeDepth
  rw [ceil_log2 hl hu h1 hs]
  refine ⟨by simp [WeightTree.new], Nat.clog 2 size, rfl, Nat.le_pow_clog (by norm_num) size, fun j hj => ?_⟩
  exact (Nat.clog_le_iff_le_pow (by norm_num)).2 hj

/-- There are such logarithms, for instance one that is cut off after sixty binary digits. -/
noncomputable def exLog2 (n : Nat) : ℚ := (⌊Real.logb 2 n * 2 ^ 60⌋ : ℚ) / 2 ^ 60

theorem exLog2_ok : Log2 exLog2 (1 / 2 ^ 52) := by
  refine ⟨?_, ?_, ?_⟩
  · intro m n hm hmn
    unfold exLog2
    have h : Real.logb 2 m ≤ Real.logb 2 n := Real.logb_le_logb_of_le (by norm_num) (by exact_mod_cast hm) (by exact_mod_cast hmn)
    have h2 : ⌊Real.logb 2 m * 2 ^ 60⌋ ≤ ⌊Real.logb 2 n * 2 ^ 60⌋ := Int.floor_le_floor (mul_le_mul_of_nonneg_right h (by positivity))
    have h3 : (⌊Real.logb 2 m * 2 ^ 60⌋ : ℚ) ≤ (⌊Real.logb 2 n * 2 ^ 60⌋ : ℚ) := by exact_mod_cast h2
    exact div_le_div_of_nonneg_right h3 (by positivity)
  · intro k
    unfold exLog2
    have h : Real.logb 2 ((2 ^ k : Nat) : ℝ) * 2 ^ 60 = (((k * 2 ^ 60 : Nat) : Int) : ℝ) := by
      push_cast
      rw [Real.logb_pow, Real.logb_self_eq_one (by norm_num)]
      ring
    rw [h, Int.floor_intCast]
    push_cast
    field_simp
    norm_num
  · intro n hn
    unfold exLog2
    rcases Nat.eq_or_lt_of_le hn with h | h
    · subst h
      simp
    · have h1 : 1 ≤ Real.logb 2 n := by
        rw [Real.le_logb_iff_rpow_le (by norm_num) (by exact_mod_cast hn), Real.rpow_one]
        exact_mod_cast h
      have h2 := Int.floor_le (Real.logb 2 n * 2 ^ 60)
      have h3 := Int.lt_floor_add_one (Real.logb 2 n * 2 ^ 60)
      push_cast
      set y := (⌊Real.logb 2 n * 2 ^ 60⌋ : ℝ)
      have h4 : y / 2 ^ 60 ≤ Real.logb 2 n := by
        rw [div_le_iff₀ (by positivity)]
        exact h2
      have h5 : Real.logb 2 n < y / 2 ^ 60 + 1 / 2 ^ 60 := by
        rw [← add_div, lt_div_iff₀ (by positivity)]
        exact h3
      have h6 : (1 : ℝ) / 2 ^ 60 ≤ 1 / 2 ^ 52 * Real.logb 2 n := by
        have : (1 : ℝ) / 2 ^ 60 ≤ 1 / 2 ^ 52 * 1 := by norm_num
        exact le_trans this (mul_le_mul_of_nonneg_left h1 (by positivity))
      rw [abs_le]
      constructor <;> linarith

example : treeDepth exLog2 (2 ^ 20 + 1) = 22 := by
  obtain ⟨_, k, h1, h2, h3⟩ := C242_depth exLog2 _ exLog2_ok (le_refl _) (2 ^ 20 + 1) (by norm_num) (by norm_num)
  rw [h1]
  have h4 := h3 21 (by norm_num)
  have h5 : ¬ k ≤ 20 := by
    intro hk
    have := Nat.pow_le_pow_right (n := 2) (by norm_num) hk
    omega
  omega

/-! ### C243 -/

/-- No member is asked for more than the whole batch. -/
def C243_full : Prop := ∀ (ws : List ℚ) (B : Nat), Weights double ws → ∀ s ∈ shares double ws B, s ≤ B

/-- A priority sum for which the error of the product is not undone by the division, and `1e-6` is lost in the sum. -/
def exSum : ℚ := 4438101006183881 / 2 ^ 17

/-- A single process asked for three samples draws four. -/
theorem C243_violated_four : shares double [exSum] 3 = [4] := by decide +kernel

theorem C243_violated : ¬ C243_full := by
  intro h
  have := h [exSum] 3 (by
    intro w hw
    rw [List.mem_singleton.1 hw]
    decide +kernel) 4 (by rw [C243_violated_four]; simp)
  omega

/-- **C243, partial**, any rounding: for batch sizes that are small against the precision, every share is within one of the exact share of the weight
in the sum that was computed; no share exceeds the batch size by more than one, a weight of 0 gives no share, every other weight gives at least one
sample. Missing: at most the batch size. -/
theorem C243_shares_partial (fl : ℚ → ℚ) (u : ℚ) (hf : Rounding fl u) (hu0 : 0 ≤ u) (hu : u ≤ 1 / 8) (ws : List ℚ) (hw : Weights fl ws) (B : Nat)
    (hB : 4 * u * B < 1) (i : Nat) (w : ℚ) (s : Int) (hi : ws[i]? = some w) (hs : (shares fl ws B)[i]? = some s) :
    |s - ⌈w * B / allSum fl ws⌉| ≤ 1 ∧ s ≤ B + 1 ∧ (w = 0 → s = 0) ∧ (0 < w → 1 ≤ B → 1 ≤ s) := by
  have hu1 : u < 1 := by linarith
  simp only [shares, List.getElem?_map, hi, Option.map_some, Option.some.injEq] at hs
  have hwm := List.mem_of_getElem? hi
  obtain ⟨hw0, _⟩ := hw w hwm
  obtain ⟨hS, hle, _, _⟩ := allSum_spec hf hu0 hu1 ws hw
  have hnear := quot_near hf hu0 hu1 hw0 hS (hle w hwm) B hB hu
  subst hs
  refine ⟨ceil_near hnear, ?_, ?_, ?_⟩
  · have heB : w * B / allSum fl ws ≤ B := by
      rw [div_le_iff₀ hS]
      have h1 := hle w hwm
      have : (0 : ℚ) ≤ B := by positivity
      nlinarith
    rw [Int.ceil_le]
    push_cast
    have := (abs_lt.1 hnear).2
    linarith
  · rintro rfl
    rw [zero_mul, hf.zero, zero_div, hf.zero, Int.ceil_zero]
  · intro hpos hB1
    have hB' : (0 : ℚ) < B := by exact_mod_cast hB1
    have : 0 < fl (fl (w * B) / allSum fl ws) := fl_pos hf hu0 hu1 (div_pos (fl_pos hf hu0 hu1 (mul_pos hpos hB')) hS)
    exact Int.one_le_ceil_iff.2 this

/-- In double precision: all batch sizes below `2 ^ 51`. -/
theorem C243_double_partial (ws : List ℚ) (hw : Weights double ws) (B : Nat) (hB : B < 2 ^ 51) (i : Nat) (w : ℚ) (s : Int) (hi : ws[i]? = some w)
    (hs : (shares double ws B)[i]? = some s) :
    |s - ⌈w * B / allSum double ws⌉| ≤ 1 ∧ s ≤ B + 1 ∧ (w = 0 → s = 0) ∧ (0 < w → 1 ≤ B → 1 ≤ s) := by
  have hB' : (B : ℚ) < 2 ^ 51 := by exact_mod_cast hB
  refine C243_shares_partial double (1 / 2 ^ 53) (toNearest_rounding (by norm_num)) (by positivity) (by norm_num) ws hw B ?_ i w s hi hs
  have : 4 * (1 / 2 ^ 53) * (B : ℚ) < 4 * (1 / 2 ^ 53) * 2 ^ 51 := mul_lt_mul_of_pos_left hB' (by positivity)
  refine lt_of_lt_of_le this ?_
  norm_num

example : Weights double [1 / 2, 0, 5 / 4] ∧ shares double [1 / 2, 0, 5 / 4] 7 = [2, 0, 5] := by
  refine ⟨?_, by decide +kernel⟩
  have : ∀ w ∈ ([1 / 2, 0, 5 / 4] : List ℚ), 0 ≤ w ∧ double w = w := by decide +kernel
  exact this

/-- **C243, partial**: if no weight is so large that `1e-6` is lost against it, no share exceeds the batch size, whatever that is. -/
theorem C243_moderate_partial (fl : ℚ → ℚ) (u : ℚ) (hf : Rounding fl u) (hu0 : 0 ≤ u) (hu1 : u < 1) (ws : List ℚ) (hw : Weights fl ws)
    (hm : ∀ w ∈ ws, 3 * u * w ≤ (1 - 4 * u) / 1000000) (B : Nat) : ∀ s ∈ shares fl ws B, s ≤ B := by
  intro s hs
  obtain ⟨w, hwm, rfl⟩ := List.mem_map.1 hs
  obtain ⟨hw0, _⟩ := hw w hwm
  obtain ⟨hS, _, _, _⟩ := allSum_spec hf hu0 hu1 ws hw
  obtain ⟨_, hle, _⟩ := sumF_ge hf hu0 hu1 ws 0 (le_refl _) hf.zero hw
  have h1u : 0 < 1 - u := by linarith
  have he : (1 - u) * (1 / 1000000) ≤ fl (1 / 1000000) := (fl_bounds hf hu0 hu1 (by norm_num)).1
  have he0 : 0 ≤ fl (1 / 1000000) := fl_nonneg hf (by norm_num)
  have hS2 : (1 - u) * (w + (1 - u) * (1 / 1000000)) ≤ allSum fl ws := by
    have hmn := hf.mono (w + fl (1 / 1000000)) (sumF fl 0 ws + fl (1 / 1000000)) (by linarith [hle w hwm])
    have hb := (fl_bounds hf hu0 hu1 (x := w + fl (1 / 1000000)) (by linarith)).1
    have : (1 - u) * (w + (1 - u) * (1 / 1000000)) ≤ (1 - u) * (w + fl (1 / 1000000)) := mul_le_mul_of_nonneg_left (by linarith) h1u.le
    exact le_trans this (le_trans hb hmn)
  have hkey : w ≤ (1 - u) ^ 2 * allSum fl ws := by
    have h1 : (1 - u) ^ 2 * ((1 - u) * (w + (1 - u) * (1 / 1000000))) ≤ (1 - u) ^ 2 * allSum fl ws :=
      mul_le_mul_of_nonneg_left hS2 (by positivity)
    refine le_trans ?_ h1
    have e : (1 - u) ^ 2 * ((1 - u) * (w + (1 - u) * (1 / 1000000))) = (1 - u) ^ 3 * w + (1 - u) ^ 4 * (1 / 1000000) := by ring
    have e3 : 1 - 3 * u ≤ (1 - u) ^ 3 := by nlinarith [sq_nonneg u, mul_nonneg hu0 (sq_nonneg u)]
    have e4 : 1 - 4 * u ≤ (1 - u) ^ 4 := by nlinarith [sq_nonneg u, sq_nonneg (u * (u - 2)), mul_nonneg hu0 hu0]
    have h3 : (1 - 3 * u) * w ≤ (1 - u) ^ 3 * w := mul_le_mul_of_nonneg_right e3 hw0
    have h4 : (1 - 4 * u) * (1 / 1000000) ≤ (1 - u) ^ 4 * (1 / 1000000) := mul_le_mul_of_nonneg_right e4 (by norm_num)
    have h5 := hm w hwm
    rw [e]
    linarith
  have hq := (quot_bounds hf hu0 hu1 hw0 hS B).2
  have hB0 : (0 : ℚ) ≤ B := by positivity
  have hwB : w * B / allSum fl ws ≤ (1 - u) ^ 2 * B := by
    rw [div_le_iff₀ hS]
    have : w * B ≤ (1 - u) ^ 2 * allSum fl ws * B := mul_le_mul_of_nonneg_right hkey hB0
    linarith
  have hfin : (1 - u) ^ 2 * fl (fl (w * B) / allSum fl ws) ≤ (1 - u) ^ 2 * B := le_trans hq hwB
  rw [Int.ceil_le]
  exact_mod_cast le_of_mul_le_mul_left hfin (by positivity)

/-- In double precision: weights up to two thousand million. -/
theorem C243_double_moderate_partial (ws : List ℚ) (hw : Weights double ws) (hm : ∀ w ∈ ws, w ≤ 2000000000) (B : Nat) :
    ∀ s ∈ shares double ws B, s ≤ B := by
  refine C243_moderate_partial double (1 / 2 ^ 53) (toNearest_rounding (by norm_num)) (by positivity) (by norm_num) ws hw ?_ B
  intro w hwm
  have h1 := hm w hwm
  have : 3 * (1 / 2 ^ 53) * w ≤ 3 * (1 / 2 ^ 53) * 2000000000 := mul_le_mul_of_nonneg_left h1 (by positivity)
  refine le_trans this ?_
  norm_num

/-- **C243, partial**: the total. The members together are asked for the batch up to `1e-6` and the rounding errors, and for less than one sample too many
each. -/
theorem C243_total_partial (fl : ℚ → ℚ) (u : ℚ) (hf : Rounding fl u) (hu0 : 0 ≤ u) (hu1 : u < 1) (ws : List ℚ) (hw : Weights fl ws) (B : Nat) :
    (1 - u) ^ (ws.length + 4) * (B * (ws.sum / (ws.sum + 1 / 1000000))) ≤ (((shares fl ws B).sum : Int) : ℚ) ∧
      (1 - u) ^ (ws.length + 3) * ((((shares fl ws B).sum : Int) : ℚ) - ws.length) ≤ B := by
  obtain ⟨hS, _, hlo, hhi⟩ := allSum_spec hf hu0 hu1 ws hw
  have hs : 0 ≤ ws.sum := List.sum_nonneg fun x hx => (hw x hx).1
  have h1u : 0 < 1 - u := by linarith
  have hB0 : (0 : ℚ) ≤ B := by positivity
  set S := allSum fl ws with hSd
  have hsum : ∀ l : List ℚ, (∀ w ∈ l, 0 ≤ w) → (1 - u) ^ 2 * (l.sum * B / S) ≤ (l.map fun w => fl (fl (w * B) / S)).sum ∧
      (1 - u) ^ 2 * (l.map fun w => fl (fl (w * B) / S)).sum ≤ l.sum * B / S := by
    intro l hl
    induction l with
    | nil => simp
    | cons a l ih =>
      obtain ⟨i1, i2⟩ := ih fun w hw => hl w (List.mem_cons_of_mem _ hw)
      obtain ⟨q1, q2⟩ := quot_bounds hf hu0 hu1 (hl a List.mem_cons_self) hS B
      simp only [List.map_cons, List.sum_cons]
      have e : (a + l.sum) * B / S = a * B / S + l.sum * B / S := by ring
      rw [e]
      constructor <;> linarith
  obtain ⟨a1, a2⟩ := hsum ws fun w hx => (hw w hx).1
  have c1 := sum_ceil_ge ws fun w => fl (fl (w * B) / S)
  have c2 := sum_ceil_le ws fun w => fl (fl (w * B) / S)
  change _ ≤ (((shares fl ws B).sum : Int) : ℚ) at c1
  change (((shares fl ws B).sum : Int) : ℚ) ≤ _ at c2
  constructor
  · refine le_trans ?_ (le_trans a1 c1)
    have hden : 0 < ws.sum + 1 / 1000000 := by linarith
    have e : (1 - u) ^ (ws.length + 4) * (B * (ws.sum / (ws.sum + 1 / 1000000))) =
        (1 - u) ^ 2 * (ws.sum * B * ((1 - u) ^ (ws.length + 2) / (ws.sum + 1 / 1000000))) := by
      rw [show ws.length + 4 = ws.length + 2 + 2 by ring, pow_add]
      ring
    rw [e]
    refine mul_le_mul_of_nonneg_left ?_ (by positivity)
    rw [mul_div_assoc ws.sum, mul_assoc]
    refine mul_le_mul_of_nonneg_left ?_ hs
    rw [div_eq_mul_inv (B : ℚ)]
    refine mul_le_mul_of_nonneg_left ?_ hB0
    rw [inv_eq_one_div, div_le_div_iff₀ hden hS]
    linarith
  · have h3 : (1 - u) ^ (ws.length + 3) * ((((shares fl ws B).sum : Int) : ℚ) - ws.length) ≤
        (1 - u) ^ (ws.length + 3) * (ws.map fun w => fl (fl (w * B) / S)).sum := mul_le_mul_of_nonneg_left (by linarith) (by positivity)
    refine le_trans h3 ?_
    have e : (1 - u) ^ (ws.length + 3) * (ws.map fun w => fl (fl (w * B) / S)).sum =
        (1 - u) ^ (ws.length + 1) * ((1 - u) ^ 2 * (ws.map fun w => fl (fl (w * B) / S)).sum) := by
      rw [show ws.length + 3 = ws.length + 1 + 2 by ring, pow_add]
      ring
    rw [e]
    refine le_trans (mul_le_mul_of_nonneg_left a2 (by positivity)) ?_
    rw [← mul_div_assoc, div_le_iff₀ hS]
    have : (1 - u) ^ (ws.length + 1) * ws.sum * B ≤ S * B := mul_le_mul_of_nonneg_right hlo hB0
    linarith

example : (shares double [1 / 2, 0, 5 / 4] 7).sum = 7 := by decide +kernel

/-- Without rounding these are the sizes of the model of the prioritized distributed buffer, and none exceeds the batch size. -/
theorem C243_exact (ws : List ℚ) (B : Nat) :
    shares (fun x => x) ws B = Dist.sampleSizes ws B ∧ ((∀ w ∈ ws, 0 ≤ w) → ∀ s ∈ Dist.sampleSizes ws B, s ≤ B) := by
  have hsum : ∀ (l : List ℚ) (acc : ℚ), sumF (fun x => x) acc l = acc + l.sum := by
    intro l
    induction l with
    | nil => intro acc; simp [sumF]
    | cons a l ih => intro acc; rw [sumF, ih, List.sum_cons]; ring
  have he : shares (fun x => x) ws B = Dist.sampleSizes ws B := by
    simp only [shares, Dist.sampleSizes, allSum, hsum, zero_add]
  refine ⟨he, fun hw => ?_⟩
  rw [← he]
  exact C243_moderate_partial (fun x => x) 0 ⟨fun _ _ h => h, rfl, fun _ => rfl, fun x => by simp⟩ (le_refl _) (by norm_num) ws
    (fun w h => ⟨hw w h, rfl⟩) (fun w _ => by norm_num) B

end Machin.Sizes
