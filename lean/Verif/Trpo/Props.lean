import Verif.Trpo.Kl
import Mathlib.Tactic.Ring
import Mathlib.Tactic.Linarith
import Mathlib.Tactic.FieldSimp
import Mathlib.Tactic.NormNum
import Mathlib.Analysis.SpecialFunctions.Exp
import Mathlib.Analysis.Complex.ExponentialBounds
import Mathlib.Algebra.Module.LinearMap.Basic

/-! # C59, C60, C75, C76, C77: TRPO -/

namespace Machin.Trpo

/-! ### C60 -/

/-- Every parameter has as many numbers as its shape says. -/
def Model.WF {K : Type} (m : Model K) : Prop := ∀ p ∈ m, p.data.length = p.shape.prod

/-- Number of numbers in a model, from the shapes. -/
def Model.size {K : Type} (m : Model K) : Nat := (m.map fun p => p.shape.prod).sum

/-- Same architecture. -/
def Model.Same {K : Type} (a b : Model K) : Prop := a.map (·.shape) = b.map (·.shape)

theorem setFrom_spec {K : Type} (flat : List K) (idx : Nat) (m : Model K) (h : flat.length = idx + Model.size m) :
    ∃ m', setFrom flat idx m = (m', .ok ()) ∧ m'.flatMap (·.data) = flat.drop idx ∧ Model.Same m m' ∧ Model.WF m' := by
  induction m generalizing idx with
  | nil =>
    refine ⟨[], rfl, ?_, rfl, by intro p hp; simp at hp⟩
    simp [Model.size] at h
    simp [List.drop_of_length_le, h]
  | cons p ps ih =>
    have hs : Model.size (p :: ps) = p.shape.prod + Model.size ps := by simp [Model.size]
    rw [hs] at h
    obtain ⟨m', h1, h2, h3, h4⟩ := ih (idx + p.shape.prod) (by omega)
    have hl : ((flat.drop idx).take p.shape.prod).length = p.shape.prod := by simp; omega
    unfold setFrom
    simp only
    rw [if_pos hl, h1]
    refine ⟨_, rfl, ?_, ?_, ?_⟩
    · rw [List.flatMap_cons, h2, ← List.drop_drop]
      simp only
      rw [List.take_append_drop]
    · unfold Model.Same at h3 ⊢
      simp [h3]
    · intro q hq
      rcases List.mem_cons.mp hq with rfl | hq
      · exact hl
      · exact h4 q hq

/-- Models of the same architecture with the same numbers are equal. -/
theorem Model.ext {K : Type} (a b : Model K) (ha : Model.WF a) (hb : Model.WF b) (hs : Model.Same a b)
    (hd : a.flatMap (·.data) = b.flatMap (·.data)) : a = b := by
  induction a generalizing b with
  | nil =>
    cases b with
    | nil => rfl
    | cons q qs => simp [Model.Same] at hs
  | cons p ps ih =>
    cases b with
    | nil => simp [Model.Same] at hs
    | cons q qs =>
      unfold Model.Same at hs
      simp only [List.map_cons, List.cons.injEq] at hs
      rw [List.flatMap_cons, List.flatMap_cons] at hd
      have hp := ha p (by simp)
      have hq := hb q (by simp)
      have hlen : p.data.length = q.data.length := by rw [hp, hq, hs.1]
      obtain ⟨d1, d2⟩ := List.append_inj hd hlen
      rw [ih qs (fun x hx => ha x (by simp [hx])) (fun x hx => hb x (by simp [hx])) hs.2 d2]
      congr 1
      cases p
      cases q
      simp at hs d1
      simp [hs.1, d1]

theorem Model.size_same {K : Type} (a b : Model K) (h : Model.Same a b) : Model.size a = Model.size b := by
  unfold Model.size
  have : a.map (fun p => p.shape.prod) = (a.map (·.shape)).map List.prod := by simp
  rw [this, h, List.map_map]
  rfl

theorem getFlat_length {K : Type} (m : Model K) (h : Model.WF m) : (m.flatMap (·.data)).length = Model.size m := by
  unfold Model.size
  rw [List.length_flatMap]
  congr 1
  apply List.map_congr_left
  intro p hp
  exact h p hp

/-- Reading back the flat vector that was set: for every vector of the right length, whatever the parameters were before. -/
theorem C60_get_set {K : Type} (m : Model K) (hm : m ≠ []) (v : List K) (hv : v.length = Model.size m) :
    ∃ m', setFlat m v = (m', .ok ()) ∧ getFlat m' = .ok v ∧ Model.Same m m' ∧ Model.WF m' := by
  obtain ⟨m', h1, h2, h3, h4⟩ := setFrom_spec v 0 m (by omega)
  refine ⟨m', h1, ?_, h3, h4⟩
  unfold getFlat
  rw [if_neg, h2]
  · rfl
  · rintro rfl
    unfold Model.Same at h3
    simp at h3
    exact hm h3

/-- Setting the flat vector that was read leaves every parameter unchanged. -/
theorem C60_set_get {K : Type} (m : Model K) (hm : m ≠ []) (hwf : Model.WF m) :
    ∃ v, getFlat m = .ok v ∧ setFlat m v = (m, .ok ()) := by
  refine ⟨m.flatMap (·.data), by unfold getFlat; rw [if_neg hm], ?_⟩
  obtain ⟨m', h1, h2, h3, h4⟩ := setFrom_spec (m.flatMap (·.data)) 0 m (by rw [getFlat_length m hwf]; omega)
  rw [setFlat, h1]
  congr 1
  exact (Model.ext m m' hwf h4 h3 (by rw [h2]; rfl)).symm

/-- A matrix, an empty parameter and a scalar. -/
example : ([⟨[2, 2], [1, 2, 3, 4]⟩, ⟨[0], []⟩, ⟨[], [5]⟩] : Model Int) ≠ [] ∧
    Model.size ([⟨[2, 2], [1, 2, 3, 4]⟩, ⟨[0], []⟩, ⟨[], [5]⟩] : Model Int) = 5 ∧
    (setFlat ([⟨[2, 2], [1, 2, 3, 4]⟩, ⟨[0], []⟩, ⟨[], [5]⟩] : Model Int) [9, 8, 7, 6, 5]).1 =
      [⟨[2, 2], [9, 8, 7, 6]⟩, ⟨[0], []⟩, ⟨[], [5]⟩] := by decide

/-- A vector that is too long is accepted and its end ignored; one that is too short raises after the first parameters have been
overwritten. -/
theorem C60_wrong_length :
    (setFlat ([⟨[1], [1]⟩, ⟨[1], [2]⟩] : Model Int) [7, 8, 9]) = ([⟨[1], [7]⟩, ⟨[1], [8]⟩], .ok ()) ∧
    (setFlat ([⟨[1], [1]⟩, ⟨[1], [2]⟩] : Model Int) [7]) = ([⟨[1], [7]⟩, ⟨[1], [2]⟩], .error .runtime) := by
  refine ⟨by rfl, by rfl⟩

/-! ### C59 -/

/-- `compare_kl` restores the parameters. -/
theorem C59_compare_restores {K : Type} (measure : Model K → Model K → Option K) (m0 m : Model K) (hm : m ≠ []) (hwf : Model.WF m)
    (hwf0 : Model.WF m0) (hs : Model.Same m m0) :
    compareKl measure (m0.flatMap (·.data)) m = (m, .ok (measure m0 m)) := by
  obtain ⟨v, g1, g2⟩ := C60_set_get m hm hwf
  have hv : v = m.flatMap (·.data) := by
    unfold getFlat at g1
    rw [if_neg hm] at g1
    exact (Except.ok.inj g1).symm
  subst hv
  obtain ⟨m1, a1, a2, a3, a4⟩ := setFrom_spec (m0.flatMap (·.data)) 0 m (by
    rw [getFlat_length m0 hwf0, Model.size_same m m0 hs]; omega)
  have hm1 : m1 = m0 := Model.ext m1 m0 a4 hwf0 (by unfold Model.Same at *; rw [← a3, hs]) (by rw [a2]; rfl)
  subst hm1
  obtain ⟨m2, b1, b2, b3, b4⟩ := setFrom_spec (m.flatMap (·.data)) 0 m1 (by
    rw [getFlat_length m hwf, Model.size_same m m1 hs]; omega)
  have hm2 : m2 = m := Model.ext m2 m b4 hwf (by unfold Model.Same at *; rw [← b3, hs]) (by rw [b2]; rfl)
  subst hm2
  unfold compareKl
  rw [g1]
  simp only
  rw [setFlat, a1]
  simp only
  rw [setFlat, b1]

theorem zipWith_length {K : Type} (f : K → K → K) (a b : List K) (h : b.length = a.length) : (a.zipWith f b).length = a.length := by
  simp [h]

theorem searchLoop_spec {K : Type} [Field K] [LinearOrder K] (m0 : Model K) (hm : m0 ≠ []) (hwf : Model.WF m0)
    (loss : Model K → Option K) (kl : Model K → Model K × Except Err (Option K))
    (hkl : ∀ m, Model.WF m → Model.Same m m0 → ∃ k, kl m = (m, .ok k)) (full : List K)
    (hfull : full.length = Model.size m0) (limit : K) (fs : List K) (m : Model K) (hs : Model.Same m m0) :
    (∃ m' f, f ∈ fs ∧ searchLoop loss kl (m0.flatMap (·.data)) full limit (loss m0) fs m = (m', .ok true) ∧ Model.WF m' ∧ Model.Same m' m0 ∧
      m'.flatMap (·.data) = (m0.flatMap (·.data)).zipWith (fun p s => p + f * s) full ∧
      (∃ k, kl m' = (m', .ok (some k)) ∧ k ≤ limit) ∧ ∃ l l', loss m0 = some l ∧ loss m' = some l' ∧ 0 < l - l') ∨
    searchLoop loss kl (m0.flatMap (·.data)) full limit (loss m0) fs m = (m0, .ok false) := by
  induction fs generalizing m with
  | nil =>
    right
    obtain ⟨m', h1, h2, h3, h4⟩ := setFrom_spec (m0.flatMap (·.data)) 0 m (by
      rw [getFlat_length m0 hwf, Model.size_same m m0 hs]; omega)
    have : m' = m0 := Model.ext m' m0 h4 hwf (by unfold Model.Same at *; rw [← h3, hs]) (by rw [h2]; rfl)
    subst this
    unfold searchLoop
    rw [setFlat, h1]
  | cons f fs ih =>
    obtain ⟨m', h1, h2, h3, h4⟩ := setFrom_spec ((m0.flatMap (·.data)).zipWith (fun p s => p + f * s) full) 0 m (by
      rw [zipWith_length _ _ _ (by rw [getFlat_length m0 hwf]; exact hfull), getFlat_length m0 hwf, Model.size_same m m0 hs]; omega)
    have hs' : Model.Same m' m0 := by unfold Model.Same at *; rw [← h3, hs]
    obtain ⟨k, hk⟩ := hkl m' h4 hs'
    unfold searchLoop
    rw [setFlat, h1]
    simp only
    rw [hk]
    simp only
    split
    · rename_i hc
      left
      rw [Bool.and_eq_true] at hc
      refine ⟨m', f, by simp, rfl, h4, hs', by rw [h2]; rfl, ?_, ?_⟩
      · cases k with
        | none => exact absurd hc.1 (by simp [leNan])
        | some k => exact ⟨k, hk, by simpa [leNan] using hc.1⟩
      · have h := hc.2
        unfold improves at h
        split at h
        · rename_i a b ha hb
          exact ⟨a, b, ha, hb, by simpa using h⟩
        · cases h
    · rcases ih m' hs' with ⟨m'', g, hg, rest⟩ | h
      · exact Or.inl ⟨m'', g, by simp [hg], rest⟩
      · exact Or.inr h

/-- The line search as the code measures it: success means that the measured divergence is a number at most the limit and the loss
is smaller than before, at a point `params + 0.5^i * full_step`; failure means that the parameters are exactly those before. No
exception is raised. Missing: the measured divergence is not the divergence for the continuous actor (`C59_violated`). -/
theorem C59_search_partial {K : Type} [Field K] [LinearOrder K] [IsStrictOrderedRing K] (m0 : Model K) (hm : m0 ≠ [])
    (hwf : Model.WF m0) (loss : Model K → Option K) (measure : Model K → Model K → Option K) (full : List K)
    (hfull : full.length = Model.size m0) (limit : K) (n : Nat) :
    (∃ m' i, i < n ∧ lineSearch m0 loss (compareKl measure (m0.flatMap (·.data))) full limit n = (m', .ok true) ∧
      m'.flatMap (·.data) = (m0.flatMap (·.data)).zipWith (fun p s => p + (1 / 2) ^ i * s) full ∧
      (∃ k, measure m0 m' = some k ∧ k ≤ limit) ∧ ∃ l l', loss m0 = some l ∧ loss m' = some l' ∧ l' < l) ∨
    lineSearch m0 loss (compareKl measure (m0.flatMap (·.data))) full limit n = (m0, .ok false) := by
  have hne : ∀ m : Model K, Model.Same m m0 → m ≠ [] := by
    rintro m h rfl
    unfold Model.Same at h
    simp at h
    exact hm h
  have hkl : ∀ m, Model.WF m → Model.Same m m0 → compareKl measure (m0.flatMap (·.data)) m = (m, .ok (measure m0 m)) :=
    fun m h1 h2 => C59_compare_restores measure m0 m (hne m h2) h1 hwf h2
  have hget : getFlat m0 = .ok (m0.flatMap (·.data)) := by unfold getFlat; rw [if_neg hm]
  unfold lineSearch
  rw [hget]
  simp only
  rcases searchLoop_spec m0 hm hwf loss (compareKl measure (m0.flatMap (·.data))) (fun m h1 h2 => ⟨_, hkl m h1 h2⟩) full hfull limit
    (fractions K n) m0 rfl with ⟨m', f, hf, h1, h2, h3, h4, ⟨k, h5, h6⟩, l, l', h7, h8, h9⟩ | h
  · left
    unfold fractions at hf
    rw [List.mem_map] at hf
    obtain ⟨i, hi, rfl⟩ := hf
    refine ⟨m', i, by simpa using hi, h1, h4, ⟨k, ?_, h6⟩, l, l', h7, h8, by linarith⟩
    rw [hkl m' h2 h3] at h5
    simpa using h5
  · exact Or.inr h

/-- One parameter, loss `x²`, divergence `(x - x0)²`: from 4 with step -16 the fraction 1/2 is the first with a smaller loss, but only
1/4 is within the limit. -/
example : lineSearch ([⟨[1], [4]⟩] : Model Rat) (fun m => m.head?.bind fun p => p.data.head?.map fun x => x * x)
      (compareKl (fun a b => a.head?.bind fun p => b.head?.bind fun q => p.data.head?.bind fun x => q.data.head?.map fun y =>
        (x - y) * (x - y)) [4]) [-16] 16 10 = ([⟨[1], [0]⟩], .ok true) := by
  decide +kernel

/-- How the measured divergence relates to the true one: the logarithms of the standard deviations are missing. -/
theorem C59_measured (a : ContActor) (hB : a.B ≠ 0) (old new : Model ℝ) :
    measuredKl a old new = trueKl a old new - ∑ d ∈ Finset.range a.D, (a.logStd old d - a.logStd new d) := by
  have hB' : (a.B : ℝ) ≠ 0 := by exact_mod_cast hB
  unfold measuredKl trueKl gaussKl
  simp only
  have h : ∀ b ∈ Finset.range a.B, (∑ d ∈ Finset.range a.D,
      (a.logStd new d - a.logStd new d + (Real.exp (a.logStd new d) ^ 2 + (a.mean new b d - a.mean old b d) ^ 2) /
        (2 * Real.exp (a.logStd old d) ^ 2) - 1 / 2)) =
      (∑ d ∈ Finset.range a.D, (Real.log (Real.exp (a.logStd old d) / Real.exp (a.logStd new d)) +
        (Real.exp (a.logStd new d) ^ 2 + (a.mean new b d - a.mean old b d) ^ 2) / (2 * Real.exp (a.logStd old d) ^ 2) - 1 / 2)) -
      ∑ d ∈ Finset.range a.D, (a.logStd old d - a.logStd new d) := by
    intro b _
    rw [← Finset.sum_sub_distrib]
    apply Finset.sum_congr rfl
    intro d _
    rw [Real.log_div (Real.exp_ne_zero _) (Real.exp_ne_zero _), Real.log_exp, Real.log_exp]
    ring
  rw [Finset.sum_congr rfl h, Finset.sum_sub_distrib, Finset.sum_const, Finset.card_range, nsmul_eq_mul, sub_div,
    mul_div_cancel_left₀ _ hB']

/-- C59, full statement for the continuous actor: success means that the true divergence (in either direction) is at most the
limit. -/
def C59_full : Prop :=
  ∀ (a : ContActor) (m0 m' : Model ℝ) (loss : Model ℝ → Option ℝ) (full : List ℝ) (limit : ℝ), m0 ≠ [] → Model.WF m0 →
    full.length = Model.size m0 → a.B ≠ 0 →
    lineSearch m0 loss (contCompareKl a (m0.flatMap (·.data))) full limit 10 = (m', .ok true) →
    trueKl a m0 m' ≤ limit ∨ trueKlRev a m0 m' ≤ limit

/-- A continuous actor whose only parameter is the logarithm of the standard deviation. -/
noncomputable def exActor : ContActor :=
  ⟨1, 1, fun _ _ _ => 0, fun m _ => (m.flatMap (·.data)).headD 0⟩

theorem C59_violated_kl : ∃ m', lineSearch ([⟨[1, 1], [0]⟩] : Model ℝ) (fun m => some ((m.flatMap (·.data)).headD 0))
      (contCompareKl exActor [0]) [-10] (1 / 100) 10 = (m', .ok true) ∧
    9 < trueKl exActor [⟨[1, 1], [0]⟩] m' ∧ 9 < trueKlRev exActor [⟨[1, 1], [0]⟩] m' := by
  have hmeas : measuredKl exActor [⟨[1, 1], [0]⟩] [⟨[1, 1], [-10]⟩] ≤ 1 / 100 := by
    unfold measuredKl exActor
    simp
    have h1 : Real.exp (-10) ≤ 1 := by rw [Real.exp_le_one_iff]; norm_num
    have h2 : 0 < Real.exp (-10) := Real.exp_pos _
    nlinarith
  refine ⟨[⟨[1, 1], [-10]⟩], ?_, ?_, ?_⟩
  · obtain ⟨fs, hfs⟩ : ∃ fs, fractions ℝ 10 = 1 :: fs := ⟨_, by
      unfold fractions
      rw [show (10 : ℕ) = 9 + 1 from rfl, List.range_succ_eq_map, List.map_cons, pow_zero]⟩
    have hz : List.zipWith (fun p s => p + 1 * s) [(0 : ℝ)] [-10] = [-10] := by norm_num
    have hk : contCompareKl exActor [0] [⟨[1, 1], [-10]⟩] =
        ([⟨[1, 1], [-10]⟩], .ok (some (measuredKl exActor [⟨[1, 1], [0]⟩] [⟨[1, 1], [-10]⟩]))) := by
      have := C59_compare_restores (fun old new => some (measuredKl exActor old new)) [⟨[1, 1], [0]⟩] [⟨[1, 1], [-10]⟩] (by simp)
        (by intro p hp; simp at hp; subst hp; rfl) (by intro p hp; simp at hp; subst hp; rfl) rfl
      simpa [contCompareKl] using this
    have hset : setFlat ([⟨[1, 1], [0]⟩] : Model ℝ) [-10] = ([⟨[1, 1], [-10]⟩], .ok ()) := rfl
    have hget : getFlat ([⟨[1, 1], [0]⟩] : Model ℝ) = .ok [0] := by unfold getFlat; rw [if_neg (by simp)]; rfl
    unfold lineSearch
    rw [hget]
    simp only
    rw [hfs]
    unfold searchLoop
    rw [hz, hset]
    simp only
    rw [hk]
    simp only
    rw [if_pos]
    rw [Bool.and_eq_true]
    refine ⟨by simpa [leNan] using hmeas, ?_⟩
    simp [improves]
  · unfold trueKl gaussKl exActor
    simp
    have h2 : 0 < Real.exp (-10) := Real.exp_pos _
    nlinarith [sq_nonneg (Real.exp (-10))]
  · unfold trueKlRev trueKl gaussKl exActor
    simp
    have h3 : Real.exp (-10) < 1 / 100 := by
      have : (2.7 : ℝ) ^ 10 < Real.exp 1 ^ 10 := by
        apply pow_lt_pow_left₀ _ (by norm_num) (by norm_num)
        have := Real.exp_one_gt_d9
        linarith
      rw [← Real.exp_nat_mul] at this
      norm_num at this
      rw [Real.exp_neg]
      rw [inv_lt_comm₀ (Real.exp_pos _) (by norm_num)]
      norm_num
      linarith
    have h2 : 0 < Real.exp (-10) := Real.exp_pos _
    have h4 : 0 < Real.exp (-10) ^ 2 := by positivity
    have h5 : Real.exp (-10) ^ 2 < 1 / 10000 := by nlinarith
    have h6 : 10000 < (Real.exp (-10) ^ 2)⁻¹ := by
      rw [lt_inv_comm₀ (by norm_num) h4]
      norm_num at h5 ⊢
      exact h5
    nlinarith

theorem C59_violated : ¬ C59_full := by
  intro h
  obtain ⟨m', h1, h2, h3⟩ := C59_violated_kl
  rcases h exActor [⟨[1, 1], [0]⟩] m' (fun m => some ((m.flatMap (·.data)).headD 0)) [-10] (1 / 100) (by simp)
    (by intro p hp; simp at hp; subst hp; rfl) (by rfl) (by simp [exActor]) (by simpa using h1) with h | h
  · linarith
  · linarith

/-! ### C75 -/

/-- C75, full statement for the discrete actor: `get_fim` gives the second derivative of the divergence with respect to the network
output. -/
def C75_full : Prop := ∀ p : ℝ, 0 < p → deriv (deriv (klDiscrete p)) p = fimDiscrete p

theorem deriv2_klDiscrete (p : ℝ) (hp : 0 < p) : deriv (deriv (klDiscrete p)) p = 1 / p := by
  have h1 : ∀ q : ℝ, 0 < q → deriv (klDiscrete p) q = -p / q := by
    intro q hq
    have he : klDiscrete p =ᶠ[nhds q] fun x => p * (Real.log p - Real.log x) := by
      filter_upwards [lt_mem_nhds hq] with x hx
      unfold klDiscrete
      rw [Real.log_div hp.ne' hx.ne']
    rw [he.deriv_eq]
    have hd : HasDerivAt (fun x => p * (Real.log p - Real.log x)) (p * (0 - q⁻¹)) q :=
      ((hasDerivAt_const q (Real.log p)).sub (Real.hasDerivAt_log hq.ne')).const_mul p
    rw [hd.deriv]
    field_simp
    ring
  have h2 : deriv (klDiscrete p) =ᶠ[nhds p] fun q => -p * q⁻¹ := by
    filter_upwards [lt_mem_nhds hp] with q hq
    rw [h1 q hq]
    rfl
  rw [h2.deriv_eq]
  have hd : HasDerivAt (fun q : ℝ => -p * q⁻¹) (-p * (-(p ^ 2)⁻¹)) p := (hasDerivAt_inv hp.ne').const_mul (-p)
  rw [hd.deriv]
  field_simp

/-- The second derivative is `1/p`, as the comment in the code says; `get_fim` returns `p`. It is right only for `p = 1`. -/
theorem C75_discrete_partial (p : ℝ) (hp : 0 < p) :
    deriv (deriv (klDiscrete p)) p = 1 / p ∧ (deriv (deriv (klDiscrete p)) p = fimDiscrete p ↔ p = 1) := by
  refine ⟨deriv2_klDiscrete p hp, ?_⟩
  rw [deriv2_klDiscrete p hp]
  unfold fimDiscrete
  constructor
  · intro h
    rw [div_eq_iff hp.ne'] at h
    nlinarith
  · rintro rfl
    norm_num

example : (0 : ℝ) < 1 / 2 := by norm_num

theorem C75_violated : ¬ C75_full := by
  intro h
  have := h (1 / 2) (by norm_num)
  rw [deriv2_klDiscrete _ (by norm_num)] at this
  unfold fimDiscrete at this
  norm_num at this

/-- For the continuous actor `get_fim` is the second derivative of the divergence with respect to the mean. -/
theorem C75_continuous_partial (l m0 m : ℝ) :
    deriv (deriv (fun x => klContinuous l l m0 x)) m = fimContinuous l := by
  have h1 : deriv (fun x => klContinuous l l m0 x) = fun x => (x - m0) / Real.exp l ^ 2 := by
    funext x
    have hd : HasDerivAt (fun x => klContinuous l l m0 x)
        (0 + (0 + 2 * (m0 - x) ^ 1 * (0 - 1)) / (2 * Real.exp l ^ 2)) x := by
      unfold klContinuous
      have ha : HasDerivAt (fun x => (m0 - x) ^ 2) (2 * (m0 - x) ^ 1 * (0 - 1)) x := by
        exact ((hasDerivAt_const x m0).sub (hasDerivAt_id x)).pow 2
      have hb := ((hasDerivAt_const x (Real.exp l ^ 2)).add ha).div_const (2 * Real.exp l ^ 2)
      have hc := ((hasDerivAt_const x (l - l)).add hb).sub_const (1 / 2)
      exact hc
    rw [hd.deriv]
    have := Real.exp_pos l
    field_simp
    ring
  rw [h1]
  have hd : HasDerivAt (fun x => (x - m0) / Real.exp l ^ 2) (1 / Real.exp l ^ 2) m :=
    ((hasDerivAt_id m).sub_const m0).div_const _
  rw [hd.deriv]
  unfold fimContinuous
  rw [← Real.exp_nat_mul, one_div, ← Real.exp_neg]
  congr 1
  push_cast
  ring

/-! ### C76 -/

theorem cgLoop_inv {K V : Type} [Field K] [LinearOrder K] [AddCommGroup V] [Module K V] (A : V →ₗ[K] V) (dot : V → V → K) (b : V)
    (eps thr : K) (n : Nat) (c : Cg K V) (hr : c.r = b - A c.x) (hrr : c.rr = dot c.r c.r) :
    (cgLoop A dot eps thr n c).1.r = b - A (cgLoop A dot eps thr n c).1.x ∧
    (cgLoop A dot eps thr n c).1.rr = dot (cgLoop A dot eps thr n c).1.r (cgLoop A dot eps thr n c).1.r ∧
    ((cgLoop A dot eps thr n c).2 = true → (cgLoop A dot eps thr n c).1.rr < thr) := by
  induction n generalizing c with
  | zero => exact ⟨hr, hrr, by simp [cgLoop]⟩
  | succ n ih =>
    have h1 : (cgStep A dot eps c).r = b - A (cgStep A dot eps c).x := by
      unfold cgStep
      simp only [map_add, map_smul, hr]
      abel
    have h2 : (cgStep A dot eps c).rr = dot (cgStep A dot eps c).r (cgStep A dot eps c).r := rfl
    unfold cgLoop
    simp only
    split
    · rename_i h
      exact ⟨h1, h2, fun _ => h⟩
    · exact ih _ h1 h2

/-- For every linear `A`, every right hand side and every number of iterations: if the method stops early, the residual `b - A x` of
the returned `x` has squared length below the threshold. -/
theorem C76_residual {K V : Type} [Field K] [LinearOrder K] [AddCommGroup V] [Module K V] (A : V →ₗ[K] V) (dot : V → V → K) (b : V)
    (eps thr : K) (n : Nat) (h : (conjugateGradients A dot b eps n thr).2 = true) :
    dot (b - A (conjugateGradients A dot b eps n thr).1) (b - A (conjugateGradients A dot b eps n thr).1) < thr := by
  unfold conjugateGradients at h ⊢
  simp only at h ⊢
  obtain ⟨h1, h2, h3⟩ := cgLoop_inv A dot b eps thr n ⟨0, b, b, dot b b⟩ (by simp) rfl
  rw [← h1, ← h2]
  exact h3 h

/-- With exact arithmetic and `eps = 0` one step solves a one-dimensional system. -/
theorem C76_one_step (a b : Rat) (ha : a ≠ 0) (hb : b ≠ 0) (thr : Rat) (hthr : 0 < thr) :
    conjugateGradients (fun x => a * x) (fun x y : Rat => x * y) b 0 1 thr = (b / a, true) := by
  unfold conjugateGradients cgLoop cgStep
  simp only [smul_eq_mul, add_zero, zero_add]
  have e : b - b * b / (b * (a * b)) * (a * b) = 0 := by field_simp; ring
  rw [e]
  simp only [mul_zero, if_pos hthr]
  congr 1
  field_simp

example : conjugateGradients (fun x => 3 * x) (fun x y : Rat => x * y) 6 0 5 (1 / 100) = (2, true) := by decide +kernel

/-! ### C77 -/

/-- C77, full statement. -/
def C77_full : Prop :=
  (∀ (n : Nat) (m0 : Model Rat) (loss : Model Rat → Option Rat) (kl : Model Rat → Model Rat × Except Err (Option Rat)) (full : List Rat)
    (limit : Rat), updateSearch n m0 loss kl full limit = lineSearch m0 loss kl full limit n) ∧
  (∀ (a : Agent) (uv up zg : Bool) (k : Nat), (update a uv up zg k).bufferSize = 0 ∧ (update a uv up zg k).training = false)

/-- The setting `line_search_backtracks` is ignored: the number of tries is always 10. -/
theorem C77_backtracks_partial {K : Type} [Field K] [LinearOrder K] (n n' : Nat) (m0 : Model K) (loss : Model K → Option K)
    (kl : Model K → Model K × Except Err (Option K)) (full : List K) (limit : K) :
    updateSearch n m0 loss kl full limit = updateSearch n' m0 loss kl full limit ∧
    updateSearch 10 m0 loss kl full limit = lineSearch m0 loss kl full limit 10 := ⟨rfl, rfl⟩

/-- Unless the gradient is zero, an update empties the buffer and leaves the networks in evaluation mode. -/
theorem C77_update_partial (a : Agent) (uv up zg : Bool) (k : Nat) (h : up = false ∨ zg = false) :
    (update a uv up zg k).bufferSize = 0 ∧ (update a uv up zg k).training = false ∧
      (update a uv up zg k).criticUpdates = a.criticUpdates + if uv then k else 0 := by
  unfold update
  rcases h with h | h <;> subst h <;> cases uv <;> simp

example : (update ⟨5, false, 0⟩ true true false 3) = ⟨0, false, 3⟩ := by decide

/-- With a zero gradient the samples stay in the buffer, the critic is not trained and the networks stay in training mode. -/
theorem C77_violated_zero_gradient (a : Agent) (uv : Bool) (k : Nat) :
    update a uv true true k = { a with training := true } := rfl

/-- A loss that only the smallest step of 12 improves is not found although 12 tries are configured. -/
theorem C77_violated_backtracks :
    (lineSearch ([⟨[1], [0]⟩] : Model Rat) (fun m => m.head?.bind fun p => p.data.head?.map fun x => if 0 < x ∧ x < 1 / 1000 then -1 else x)
      (fun m => (m, .ok (some 0))) [1] 1 12).2 = .ok true ∧
    (updateSearch 12 ([⟨[1], [0]⟩] : Model Rat) (fun m => m.head?.bind fun p => p.data.head?.map fun x => if 0 < x ∧ x < 1 / 1000 then -1 else x)
      (fun m => (m, .ok (some 0))) [1] 1).2 = .ok false := by
  constructor <;> decide +kernel

theorem C77_violated : ¬ C77_full := by
  rintro ⟨-, h⟩
  have := (h ⟨5, false, 0⟩ true true true 3).1
  revert this
  decide

end Machin.Trpo
