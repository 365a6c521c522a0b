import Verif.Returns.Round
import Verif.Precision.Lemmas
import Verif.Sizes.Lemmas

/-! # Lemmas on values and advantages in floating point -/

namespace Machin.Returns

open Machin.Prio Machin.Prio.Spec Machin.Project
open Machin.Precision (fl_err)

variable {fl : ℚ → ℚ} {u : ℚ} {S : Type}

theorem values_id (g : ℚ) : ∀ rs : List ℚ, valuesF id g rs = values g rs
  | [] => rfl
  | [_] => rfl
  | r :: r' :: rest => by
    rw [valuesF, values, values_id g (r' :: rest)]
    cases values g (r' :: rest) <;> rfl

theorem horner_id (g : ℚ) : ∀ rs : List ℚ, hornerF id g rs = horner g rs
  | [] => rfl
  | r :: rest => by rw [hornerF, horner, horner_id g rest]; rfl

theorem valuesF_spec (h0 : fl 0 = 0) (g : ℚ) : ∀ rs : List ℚ, (∀ r ∈ rs, fl r = r) → (valuesF fl g rs).length = rs.length ∧
    ∀ i, i < rs.length → (valuesF fl g rs)[i]? = some (hornerF fl g (rs.drop i))
  | [], _ => ⟨rfl, fun i hi => by simp at hi⟩
  | [r], h => by
    refine ⟨rfl, ?_⟩
    intro i hi
    have : i = 0 := by simp at hi; exact hi
    subst this
    simp [valuesF, hornerF, h0, h r (by simp)]
  | r :: r' :: rest, h => by
    obtain ⟨h1, h2⟩ := valuesF_spec h0 g (r' :: rest) (fun x hx => h x (by simp [hx]))
    rw [valuesF]
    cases hv : valuesF fl g (r' :: rest) with
    | nil => rw [hv] at h1; simp at h1
    | cons v vs =>
      rw [hv] at h1 h2
      have hv0 : v = hornerF fl g (r' :: rest) := by
        have := h2 0 (by simp)
        simpa using this
      refine ⟨by simp only [List.length_cons] at h1 ⊢; omega, ?_⟩
      intro i hi
      cases i with
      | zero => simp [hornerF, hv0]
      | succ i =>
        have := h2 i (by simp only [List.length_cons] at hi ⊢; omega)
        simpa using this

theorem nstepF_spec (fl : ℚ → ℚ) (g : ℚ) (n : Nat) : ∀ rs : List ℚ, (nstepF fl g n rs).length = rs.length ∧
    ∀ i, i < rs.length → (nstepF fl g n rs)[i]? = some (hornerF fl g ((rs.drop i).take n))
  | [] => ⟨rfl, fun i hi => by simp at hi⟩
  | r :: rest => by
    obtain ⟨h1, h2⟩ := nstepF_spec fl g n rest
    refine ⟨by simp [nstepF, h1], ?_⟩
    intro i hi
    cases i with
    | zero =>
      have : (r :: rest).take (min n (rest.length + 1)) = (r :: rest).take n := by
        rw [← List.length_cons (a := r), ← List.take_take, List.take_length]
      simp only [nstepF, List.getElem?_cons_zero, List.drop_zero, this]
    | succ i => simpa [nstepF] using h2 i (by simpa using hi)

theorem nstep_id (g : ℚ) (n : Nat) : ∀ rs : List ℚ, nstepF id g n rs = nstep g n rs
  | [] => rfl
  | r :: rest => by rw [nstepF, nstep, horner_id, nstep_id g n rest]

/-- The exact sum is bounded. -/
theorem horner_bound {g R : ℚ} (h0 : 0 ≤ g) (h1 : g < 1) (hR : 0 ≤ R) : ∀ rs : List ℚ, (∀ r ∈ rs, |r| ≤ R) → |horner g rs| ≤ R / (1 - g)
  | [], _ => by
    simp only [horner, abs_zero]
    exact div_nonneg hR (by linarith)
  | r :: rest, h => by
    have ih := horner_bound h0 h1 hR rest (fun x hx => h x (by simp [hx]))
    have hr := h r (by simp)
    have e : R = (1 - g) * (R / (1 - g)) := by
      have : 1 - g ≠ 0 := by linarith
      field_simp
    rw [horner]
    refine le_trans (abs_add_le _ _) ?_
    rw [abs_mul, abs_of_nonneg h0]
    have := mul_le_mul_of_nonneg_right ih h0
    generalize R / (1 - g) = D at *
    linarith

/-- One step of the loop: `D` bounds the exact values, `e` is the error so far. -/
theorem step_err (hr : Rounding fl u) (hu : 0 ≤ u) (hu1 : u ≤ 1 / 100) {g D e w v r R : ℚ} (h0 : 0 ≤ g) (h1 : g ≤ 1) (hv : |v| ≤ D) (he : |w - v| ≤ e)
    (hrR : |r| ≤ R) (hR : R ≤ (1 - g) * D) : |fl (fl (w * g) + r) - (v * g + r)| ≤ (g + 3 * u) * e + 3 * u * D := by
  have e1 := fl_err hr hu hu1 (w * g)
  generalize fl (w * g) = a at *
  have e2 := fl_err hr hu hu1 (a + r)
  generalize fl (a + r) = b at *
  have hw : |w| ≤ D + e := by
    have := abs_add_le v (w - v)
    rw [add_sub_cancel] at this
    linarith
  have e0 : 0 ≤ e := le_trans (abs_nonneg _) he
  have D0 : 0 ≤ D := le_trans (abs_nonneg _) hv
  have hwg : |w * g| ≤ (D + e) * g := by
    rw [abs_mul, abs_of_nonneg h0]
    exact mul_le_mul_of_nonneg_right hw h0
  have X0 : 0 ≤ (D + e) * g := mul_nonneg (by linarith) h0
  have u1 := mul_le_mul_of_nonneg_left hwg hu
  have e1' : |a - w * g| ≤ 51 / 50 * (u * ((D + e) * g)) := by linarith
  have uX : u * ((D + e) * g) ≤ 1 / 100 * ((D + e) * g) := mul_le_mul_of_nonneg_right hu1 X0
  have ha : |a| ≤ 102 / 100 * ((D + e) * g) := by
    have := abs_add_le (a - w * g) (w * g)
    rw [sub_add_cancel] at this
    linarith
  have har : |a + r| ≤ 102 / 100 * ((D + e) * g) + R := le_trans (abs_add_le _ _) (by linarith)
  have u2 := mul_le_mul_of_nonneg_left har hu
  have hlin : |w * g - v * g| ≤ g * e := by
    rw [← sub_mul, abs_mul, abs_of_nonneg h0, mul_comm]
    exact mul_le_mul_of_nonneg_left he h0
  have tri : |b - (v * g + r)| ≤ |b - (a + r)| + |a - w * g| + |w * g - v * g| := by
    have e : b - (v * g + r) = (b - (a + r)) + (a - w * g) + (w * g - v * g) := by ring
    rw [e]
    exact le_trans (abs_add_le _ _) (add_le_add_left (abs_add_le _ _) _)
  have uR := mul_le_mul_of_nonneg_left hR hu
  have uDg : 0 ≤ u * D * (1 - g) := mul_nonneg (mul_nonneg hu D0) (by linarith)
  have ueg : u * e * g ≤ u * e := mul_le_of_le_one_right (mul_nonneg hu e0) h1
  have uD := mul_nonneg hu D0
  nlinarith

theorem hornerF_near (hr : Rounding fl u) (hu : 0 ≤ u) (hu1 : u ≤ 1 / 100) {g R : ℚ} (h0 : 0 ≤ g) (h1 : g + 3 * u < 1) (hR : 0 ≤ R) :
    ∀ rs : List ℚ, (∀ r ∈ rs, |r| ≤ R) → |hornerF fl g rs - horner g rs| ≤ 3 * u * (R / (1 - g)) / (1 - g - 3 * u)
  | [], _ => by
    simp only [hornerF, horner, sub_self, abs_zero]
    exact div_nonneg (mul_nonneg (by linarith) (div_nonneg hR (by linarith))) (by linarith)
  | r :: rest, h => by
    have ih := hornerF_near hr hu hu1 h0 h1 hR rest (fun x hx => h x (by simp [hx]))
    have hb := horner_bound h0 (by linarith : g < 1) hR rest (fun x hx => h x (by simp [hx]))
    have hRD : R ≤ (1 - g) * (R / (1 - g)) := by
      have : 1 - g ≠ 0 := by linarith
      rw [mul_div_cancel₀ R this]
    have st := step_err hr hu hu1 h0 (by linarith) hb ih (h r (by simp)) hRD
    rw [hornerF, horner]
    refine le_trans st (le_of_eq ?_)
    have : 1 - g - 3 * u ≠ 0 := by linarith
    have h3 : 1 - g ≠ 0 := by linarith
    field_simp
    ring

theorem hornerF_mono (hr : Rounding fl u) {g : ℚ} (h0 : 0 ≤ g) : ∀ rs ss : List ℚ, rs.length = ss.length → (∀ (i : Nat) (a b : ℚ), rs[i]? = some a → ss[i]? = some b → a ≤ b) →
    hornerF fl g rs ≤ hornerF fl g ss
  | [], [], _, _ => le_refl _
  | [], _ :: _, h, _ => by simp at h
  | _ :: _, [], h, _ => by simp at h
  | r :: rs, s :: ss, h, hle => by
    have ih := hornerF_mono hr h0 rs ss (by simpa using h) (fun i a b ha hb => hle (i + 1) a b (by simpa using ha) (by simpa using hb))
    have := hle 0 r s rfl rfl
    exact hr.mono _ _ (add_le_add (hr.mono _ _ (mul_le_mul_of_nonneg_right ih h0)) this)

theorem hornerF_int (hint : ∀ k : Int, |k| < 2 ^ 53 → fl k = k) (m : Nat) : ∀ ks : List Int, (∀ k ∈ ks, |k| ≤ m) → ks.length * m < 2 ^ 53 →
    hornerF fl 1 (ks.map fun (k : Int) => (k : ℚ)) = ((ks.sum : Int) : ℚ) ∧ |ks.sum| ≤ (ks.length * m : Nat)
  | [], _, _ => by simp [hornerF]
  | k :: ks, h, hl => by
    have hl' : ks.length * m < 2 ^ 53 := lt_of_le_of_lt (Nat.mul_le_mul_right m (by simp)) hl
    obtain ⟨h1, h2⟩ := hornerF_int hint m ks (fun x hx => h x (by simp [hx])) hl'
    have hk := h k (by simp)
    have hlen : (k :: ks).length * m = ks.length * m + m := by simp [Nat.add_mul]
    have hs : |k + ks.sum| ≤ ((k :: ks).length * m : Nat) := by
      refine le_trans (abs_add_le _ _) ?_
      rw [hlen]
      push_cast at h2 ⊢
      linarith
    refine ⟨?_, by simpa using hs⟩
    have hb1 : |ks.sum| < 2 ^ 53 := lt_of_le_of_lt h2 (by exact_mod_cast hl')
    have hb2 : |k + ks.sum| < 2 ^ 53 := lt_of_le_of_lt hs (by exact_mod_cast hl)
    simp only [List.map_cons, hornerF, h1, mul_one, hint _ hb1, List.sum_cons]
    rw [show ((ks.sum : Int) : ℚ) + (k : ℚ) = ((k + ks.sum : Int) : ℚ) by push_cast; ring, hint _ hb2]

theorem double_intAbs (k : Int) (h : |k| < 2 ^ 53) : double k = k := by
  rcases lt_trichotomy k 0 with hk | hk | hk
  · obtain ⟨n, rfl⟩ : ∃ n : Nat, k = -(n : Int) := ⟨k.natAbs, by omega⟩
    have hn : n < 2 ^ 53 := by
      rw [abs_neg, abs_of_nonneg (by positivity)] at h
      exact_mod_cast h
    have hn0 : 0 < n := by omega
    have hneg : ((-(n : Int) : Int) : ℚ) < 0 := by exact_mod_cast hk
    unfold double
    rw [toNearest_neg hneg]
    push_cast
    rw [neg_neg, Machin.Sizes.nearest_int (by norm_num) hn0 hn]
  · subst hk
    rfl
  · obtain ⟨n, rfl⟩ : ∃ n : Nat, k = (n : Int) := ⟨k.natAbs, by omega⟩
    rw [abs_of_nonneg (by positivity)] at h
    exact Machin.Sizes.double_int (by exact_mod_cast h)

/-! ### Advantages -/

theorem loop_id (g l : ℚ) (V : S → ℚ) : ∀ ep : List (Tr ℚ S), gaeLoopF id g l V ep = gaeLoop g l V ep
  | [] => rfl
  | tr :: rest => by rw [gaeLoopF, gaeLoop, loop_id g l V rest]; rfl

theorem loop_critic (g l : ℚ) (V : S → ℚ) (ep : List (Tr ℚ S)) : (gaeLoopF fl g l V ep).1 = (gaeLoop g l V ep).1 := by
  cases ep <;> rfl

theorem notTerm_cases (b : Bool) : (notTerm b : ℚ) = 0 ∨ (notTerm b : ℚ) = 1 := by cases b <;> simp [notTerm]

/-- The error of the one step advantage. -/
theorem delta_err (hr : Rounding fl u) (hu : 0 ≤ u) (hu1 : u ≤ 1 / 100) {g r x v n R B : ℚ} (h0 : 0 ≤ g) (h1 : g ≤ 1) (hn : n = 0 ∨ n = 1) (hR : |r| ≤ R)
    (hx : |x| ≤ B) (hv : |v| ≤ B) :
    |fl (fl (r + fl (fl (g * x) * n)) - v) - (r + g * x * n - v)| ≤ 16 / 5 * u * (R + 2 * B) ∧ |r + g * x * n - v| ≤ R + 2 * B := by
  have B0 : 0 ≤ B := le_trans (abs_nonneg _) hx
  have R0 : 0 ≤ R := le_trans (abs_nonneg _) hR
  have hg : |g * x| ≤ B := by
    rw [abs_mul, abs_of_nonneg h0]
    exact le_trans (mul_le_of_le_one_left (abs_nonneg _) h1) hx
  have key : ∃ a, fl (fl (g * x) * n) = a ∧ |a - g * x * n| ≤ 51 / 50 * u * B ∧ |g * x * n| ≤ B := by
    refine ⟨_, rfl, ?_⟩
    rcases hn with rfl | rfl
    · rw [mul_zero, mul_zero, hr.zero]
      simp only [sub_self, abs_zero]
      exact ⟨by positivity, B0⟩
    · rw [mul_one, mul_one, hr.idem]
      refine ⟨le_trans (fl_err hr hu hu1 _) ?_, hg⟩
      exact mul_le_mul_of_nonneg_left hg (by linarith)
  obtain ⟨a, ha, e1, hb⟩ := key
  rw [ha]
  generalize g * x * n = y at *
  have e2 := fl_err hr hu hu1 (r + a)
  generalize fl (r + a) = c at *
  have e3 := fl_err hr hu hu1 (c - v)
  generalize fl (c - v) = z at *
  have uB : u * B ≤ 1 / 100 * B := mul_le_mul_of_nonneg_right hu1 B0
  have uR : u * R ≤ 1 / 100 * R := mul_le_mul_of_nonneg_right hu1 R0
  have u0B := mul_nonneg hu B0
  have u0R := mul_nonneg hu R0
  have ha' : |a| ≤ 102 / 100 * B := by
    have := abs_add_le (a - y) y
    rw [sub_add_cancel] at this
    linarith
  have hra : |r + a| ≤ R + 102 / 100 * B := le_trans (abs_add_le _ _) (by linarith)
  have m1 := mul_le_mul_of_nonneg_left hra hu
  have hc : |c| ≤ 102 / 100 * R + 104 / 100 * B := by
    have := abs_add_le (c - (r + a)) (r + a)
    rw [sub_add_cancel] at this
    linarith
  have hcv : |c - v| ≤ 102 / 100 * R + 204 / 100 * B := by
    have := abs_sub c v
    linarith
  have m2 := mul_le_mul_of_nonneg_left hcv hu
  constructor
  · have tri : |z - (r + y - v)| ≤ |z - (c - v)| + |c - (r + a)| + |a - y| := by
      have e : z - (r + y - v) = (z - (c - v)) + (c - (r + a)) + (a - y) := by ring
      rw [e]
      exact le_trans (abs_add_le _ _) (add_le_add_left (abs_add_le _ _) _)
    linarith
  · have h1 := abs_sub (r + y) v
    have h2 := abs_add_le r y
    linarith

/-- One step of the loop over the advantages. -/
theorem gae_step (hr : Rounding fl u) (hu : 0 ≤ u) (hu1 : u ≤ 1 / 100) {g l n w x D e δ δ' T : ℚ} (h0 : 0 ≤ g) (h1 : g ≤ 1) (l0 : 0 ≤ l) (l1 : l ≤ 1)
    (hn : n = 0 ∨ n = 1) (hx : |x| ≤ D) (he : |w - x| ≤ e) (hd : |δ' - δ| ≤ 16 / 5 * u * T) (hδ : |δ| ≤ T) (hT : T ≤ (1 - g * l) * D) :
    |fl (fl (fl (fl (w * g) * n) * l) + δ') - (x * g * n * l + δ)| ≤ (g * l + 5 * u) * e + 5 * u * D ∧ |x * g * n * l + δ| ≤ D := by
  have D0 : 0 ≤ D := le_trans (abs_nonneg _) hx
  have e0 : 0 ≤ e := le_trans (abs_nonneg _) he
  have T0 : 0 ≤ T := le_trans (abs_nonneg _) hδ
  have gl0 : 0 ≤ g * l := mul_nonneg h0 l0
  have gl1 : g * l ≤ 1 := by nlinarith
  have hw : |w| ≤ D + e := by
    have := abs_add_le x (w - x)
    rw [add_sub_cancel] at this
    linarith
  have W0 : 0 ≤ g * l * (D + e) := mul_nonneg gl0 (by linarith)
  have uW : u * (g * l * (D + e)) ≤ 1 / 100 * (g * l * (D + e)) := mul_le_mul_of_nonneg_right hu1 W0
  have u0W := mul_nonneg hu W0
  have key : ∃ z, fl (fl (fl (w * g) * n) * l) = z ∧ |z - w * g * n * l| ≤ 207 / 100 * u * (g * l * (D + e)) ∧ |w * g * n * l| ≤ g * l * (D + e) ∧
      |w * g * n * l - x * g * n * l| ≤ g * l * e ∧ |x * g * n * l| ≤ g * l * D := by
    refine ⟨_, rfl, ?_⟩
    rcases hn with rfl | rfl
    · simp only [mul_zero, zero_mul, hr.zero, sub_self, abs_zero]
      exact ⟨by linarith, W0, mul_nonneg gl0 e0, mul_nonneg gl0 D0⟩
    · rw [mul_one, mul_one, mul_one, hr.idem]
      have f1 := fl_err hr hu hu1 (w * g)
      generalize fl (w * g) = a at *
      have f2 := fl_err hr hu hu1 (a * l)
      generalize fl (a * l) = b at *
      have hwg : |w * g| * l ≤ g * l * (D + e) := by
        rw [abs_mul, abs_of_nonneg h0]
        have := mul_le_mul_of_nonneg_left hw gl0
        linarith
      have f1' : |a - w * g| * l ≤ 51 / 50 * (u * (g * l * (D + e))) := by
        have := mul_le_mul_of_nonneg_right f1 l0
        have := mul_le_mul_of_nonneg_left hwg hu
        linarith
      have hal : |a * l| ≤ 102 / 100 * (g * l * (D + e)) := by
        rw [abs_mul, abs_of_nonneg l0]
        have h3 := abs_add_le (a - w * g) (w * g)
        rw [sub_add_cancel] at h3
        have := mul_le_mul_of_nonneg_right h3 l0
        linarith
      have f2' := mul_le_mul_of_nonneg_left hal hu
      refine ⟨?_, ?_, ?_, ?_⟩
      · have tri : |b - w * g * l| ≤ |b - a * l| + |a - w * g| * l := by
          have e : b - w * g * l = (b - a * l) + (a - w * g) * l := by ring
          rw [e]
          refine le_trans (abs_add_le _ _) ?_
          rw [abs_mul (a - w * g) l, abs_of_nonneg l0]
        linarith
      · rw [abs_mul (w * g) l, abs_of_nonneg l0]
        exact hwg
      · rw [show w * g * l - x * g * l = g * l * (w - x) by ring, abs_mul, abs_of_nonneg gl0]
        exact mul_le_mul_of_nonneg_left he gl0
      · rw [show x * g * l = g * l * x by ring, abs_mul, abs_of_nonneg gl0]
        exact mul_le_mul_of_nonneg_left hx gl0
  obtain ⟨z, hz, k1, k2, k3, k4⟩ := key
  rw [hz]
  have f3 := fl_err hr hu hu1 (z + δ')
  generalize fl (z + δ') = b at *
  generalize w * g * n * l = p at *
  generalize x * g * n * l = q at *
  have u0T := mul_nonneg hu T0
  have uT : u * T ≤ 1 / 100 * T := mul_le_mul_of_nonneg_right hu1 T0
  have hz' : |z| ≤ 103 / 100 * (g * l * (D + e)) := by
    have := abs_add_le (z - p) p
    rw [sub_add_cancel] at this
    linarith
  have hδ' : |δ'| ≤ 104 / 100 * T := by
    have := abs_add_le (δ' - δ) δ
    rw [sub_add_cancel] at this
    linarith
  have hzd : |z + δ'| ≤ 103 / 100 * (g * l * (D + e)) + 104 / 100 * T := le_trans (abs_add_le _ _) (by linarith)
  have m := mul_le_mul_of_nonneg_left hzd hu
  constructor
  · have tri : |b - (q + δ)| ≤ |b - (z + δ')| + |z - p| + |p - q| + |δ' - δ| := by
      have e : b - (q + δ) = (b - (z + δ')) + (z - p) + (p - q) + (δ' - δ) := by ring
      rw [e]
      exact le_trans (abs_add_le _ _) (add_le_add_left (le_trans (abs_add_le _ _) (add_le_add_left (abs_add_le _ _) _)) _)
    have uT' := mul_le_mul_of_nonneg_left hT hu
    have ue : u * (g * l * e) ≤ u * e := mul_le_mul_of_nonneg_left (mul_le_of_le_one_left e0 gl1) hu
    have uD := mul_nonneg hu D0
    have ugD : u * (g * l * D) ≤ u * D := mul_le_mul_of_nonneg_left (mul_le_of_le_one_left D0 gl1) hu
    have ue0 := mul_nonneg hu e0
    nlinarith
  · have := abs_add_le q δ
    linarith

theorem gaeLoopF_near (hr : Rounding fl u) (hu : 0 ≤ u) (hu1 : u ≤ 1 / 100) {g l R B : ℚ} (h0 : 0 ≤ g) (h1 : g ≤ 1) (l0 : 0 ≤ l) (l1 : l ≤ 1)
    (hgl : g * l + 5 * u < 1) (V : S → ℚ) (hV : ∀ s, |V s| ≤ B) (hB : 0 ≤ B) (hR : 0 ≤ R) : ∀ ep : List (Tr ℚ S), (∀ tr ∈ ep, |tr.reward| ≤ R) →
    |(gaeLoop g l V ep).1| ≤ B ∧ |(gaeLoop g l V ep).2.1| ≤ (R + 2 * B) / (1 - g * l) ∧
    |(gaeLoopF fl g l V ep).2.1 - (gaeLoop g l V ep).2.1| ≤ 5 * u * ((R + 2 * B) / (1 - g * l)) / (1 - g * l - 5 * u) ∧
    (gaeLoopF fl g l V ep).2.2.length = ep.length ∧ (gaeLoop g l V ep).2.2.length = ep.length ∧
    ∀ (i : Nat) (a b : ℚ), (gaeLoopF fl g l V ep).2.2[i]? = some a → (gaeLoop g l V ep).2.2[i]? = some b →
      |a - b| ≤ 5 * u * ((R + 2 * B) / (1 - g * l)) / (1 - g * l - 5 * u)
  | [], _ => by
    have hD : 0 ≤ (R + 2 * B) / (1 - g * l) := div_nonneg (by linarith) (by linarith)
    have hE : 0 ≤ 5 * u * ((R + 2 * B) / (1 - g * l)) / (1 - g * l - 5 * u) := div_nonneg (mul_nonneg (by linarith) hD) (by linarith)
    simp only [gaeLoop, gaeLoopF, sub_self, abs_zero]
    exact ⟨hB, hD, hE, rfl, rfl, by simp⟩
  | tr :: rest, h => by
    obtain ⟨i1, i2, i3, i4, i5, i6⟩ := gaeLoopF_near hr hu hu1 h0 h1 l0 l1 hgl V hV hB hR rest (fun x hx => h x (by simp [hx]))
    have hc := loop_critic (fl := fl) g l V rest
    obtain ⟨d1, d2⟩ := delta_err hr hu hu1 h0 h1 (notTerm_cases tr.terminal) (h tr (by simp)) i1 (hV tr.state)
    have hne : 1 - g * l ≠ 0 := by linarith
    have hne2 : 1 - g * l - 5 * u ≠ 0 := by linarith
    obtain ⟨s1, s2⟩ := gae_step hr hu hu1 h0 h1 l0 l1 (notTerm_cases tr.terminal) i2 i3 d1 d2 (le_of_eq (mul_div_cancel₀ _ hne).symm)
    have s1' := le_trans s1 (le_of_eq (show (g * l + 5 * u) * (5 * u * ((R + 2 * B) / (1 - g * l)) / (1 - g * l - 5 * u)) + 5 * u * ((R + 2 * B) / (1 - g * l)) =
      5 * u * ((R + 2 * B) / (1 - g * l)) / (1 - g * l - 5 * u) by field_simp; ring))
    rw [← hc] at s1'
    refine ⟨hV _, ?_, ?_, ?_, ?_, ?_⟩
    · exact s2
    · rw [hc] at s1'
      simp only [gaeLoopF, gaeLoop, hc]
      exact s1'
    · simp only [gaeLoopF, List.length_cons, i4]
    · simp only [gaeLoop, List.length_cons, i5]
    · intro i a b ha hb
      cases i with
      | zero =>
        simp only [gaeLoopF, List.getElem?_cons_zero, Option.some.injEq] at ha
        simp only [gaeLoop, List.getElem?_cons_zero, Option.some.injEq] at hb
        subst ha
        subst hb
        rw [hc] at s1' ⊢
        exact s1'
      | succ i => exact i6 i a b (by simpa [gaeLoopF] using ha) (by simpa [gaeLoop] using hb)

end Machin.Returns
