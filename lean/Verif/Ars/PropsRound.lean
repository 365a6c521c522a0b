import Verif.Ars.RoundLemmas
import Verif.Sizes.Lemmas

/-! # C249: the running statistics of ARS in floating point -/

namespace Machin.Ars

open Machin.Prio Machin.Prio.Spec Machin.Project Spec

/-- The full property: for every rounding, if all samples are the same number, the mean is this number and the sum of
squares is 0, whichever way the estimators were merged. -/
def C249_full : Prop := ∀ (fl : ℚ → ℚ) (u : ℚ), Rounding fl u → 0 ≤ u → u ≤ 1 / 100 → ∀ (h : Hist) (c : ℚ), fl c = c → Proper h →
  samples h ≠ [] → (∀ x ∈ samples h, x = c) → h.run fl = ⟨(samples h).length, some c, some 0⟩

/-- `k` samples `c` pushed into a new estimator. -/
def same (c : ℚ) : Nat → Hist
  | 0 => .new
  | k + 1 => .push (same c k) c

/-- The property fails in double precision: a worker saw the number nearest to 0.1 once, another twice, and the mean is
another number. -/
theorem C249_violated : ¬ C249_full := by
  intro h
  have := h double (1 / 2 ^ 53) (toNearest_rounding (by norm_num)) (by norm_num) (by norm_num) (.merge (same (double (1 / 10)) 1) (same (double (1 / 10)) 2))
    (double (1 / 10)) (by decide +kernel) (by simp [Proper, same, samples]) (by simp [samples, same]) (by simp [samples, same])
  revert this
  decide +kernel

/-- Three workers saw one constant, a time in seconds; its variance comes out above `1e-14`, so that the deviation is not
replaced by infinity, and its distance from the mean is more than the deviation: it is not normalised to 0. -/
theorem C249_violated_scale :
    let c := double (17000000001 / 10)
    let s := (Hist.merge (.merge (same c 2) (same c 5)) (same c 5)).run double
    ∃ m v, s.M = some m ∧ s.varF double = some v ∧ 1 / 10 ^ 14 < v ∧ 2 * v < (c - m) * (c - m) := by
  refine ⟨_, _, rfl, rfl, ?_, ?_⟩ <;> decide +kernel

/-- Without merging, equal samples give the exact mean and no deviation. -/
theorem C249_same_partial {fl : ℚ → ℚ} {u : ℚ} (hr : Rounding fl u) {h : Hist} {c : ℚ} (hc : fl c = c) (hp : Pushed h)
    (hn : samples h ≠ []) (hs : ∀ x ∈ samples h, x = c) : h.run fl = ⟨(samples h).length, some c, some 0⟩ := by
  rw [run_constant hr hc h (pushed_proper h hp) hs (Or.inl hp), if_neg hn]

example : (same (double (1 / 10)) 3).run double = ⟨3, some (double (1 / 10)), some 0⟩ :=
  C249_same_partial (toNearest_rounding (by norm_num)) (by decide +kernel) (by simp [Pushed, same]) (by simp [same, samples]) (by simp [same, samples])

/-- With merging, too, if the multiples of the sample are kept, up to the number of samples. -/
theorem C249_multiples_partial {fl : ℚ → ℚ} {u : ℚ} (hr : Rounding fl u) {h : Hist} {c : ℚ} (hp : Proper h) (hn : samples h ≠ [])
    (hs : ∀ x ∈ samples h, x = c) (hk : ∀ k : ℕ, k ≤ (samples h).length → fl (k * c) = k * c) :
    h.run fl = ⟨(samples h).length, some c, some 0⟩ := by
  have h1 := hk 1 (List.length_pos_iff.2 hn)
  rw [Nat.cast_one, one_mul] at h1
  rw [run_constant hr h1 h hp hs (Or.inr hk), if_neg hn]

/-- In double precision: a whole number, which times the number of samples is below `2 ^ 53`. -/
theorem C249_whole_partial {h : Hist} {c : ℕ} (hp : Proper h) (hn : samples h ≠ []) (hs : ∀ x ∈ samples h, x = (c : ℚ))
    (hc : (samples h).length * c < 2 ^ 53) : h.run double = ⟨(samples h).length, some (c : ℚ), some 0⟩ := by
  refine C249_multiples_partial (toNearest_rounding (p := 53) (by norm_num)) hp hn hs (fun k hk => ?_)
  rw [← Nat.cast_mul]
  exact Sizes.double_int (lt_of_le_of_lt (Nat.mul_le_mul_right c hk) hc)

example : (Hist.merge (same 7 2) (same 7 3)).run double = ⟨5, some 7, some 0⟩ :=
  C249_whole_partial (c := 7) (by simp [Proper, same, samples]) (by simp [samples, same]) (by simp [samples, same]) (by simp [samples, same])

/-- The sum of squares is a number that is not negative, whatever was pushed and merged, so the variance has a square
root. -/
theorem C249_variance {fl : ℚ → ℚ} {u : ℚ} (hr : Rounding fl u) {h : Hist} (hp : Proper h) (hs : ∀ x ∈ samples h, fl x = x) :
    ∃ m v w, h.run fl = ⟨(samples h).length, some m, some v⟩ ∧ 0 ≤ v ∧ (h.run fl).varF fl = some w ∧ 0 ≤ w ∧
      (1 < (samples h).length → w = fl (v / ((samples h).length - 1))) := by
  obtain ⟨m, v, e, hm, hv, v0⟩ := run_values hr h hp hs
  rw [e]
  by_cases hl : 1 < (samples h).length
  · have h1 : (1 : ℚ) < (samples h).length := by exact_mod_cast hl
    exact ⟨m, v, _, rfl, v0, by rw [Stat.varF, if_pos hl]; rfl, fl_nonneg hr (div_nonneg v0 (by linarith)), fun _ => rfl⟩
  · exact ⟨m, v, _, rfl, v0, by rw [Stat.varF, if_neg hl]; rfl, fl_nonneg hr (mul_self_nonneg m), fun h => absurd h hl⟩

/-- The sum of squares never falls: not by a push, and not below that of either estimator by a merge. -/
theorem C249_growing {fl : ℚ → ℚ} {u : ℚ} (hr : Rounding fl u) {h : Hist} (hp : Proper h) (hs : ∀ x ∈ samples h, fl x = x) :
    (∀ x v w, (h.run fl).S = some v → ((Hist.push h x).run fl).S = some w → v ≤ w) ∧
    (∀ g v v' w, Proper g → (∀ x ∈ samples g, fl x = x) → (h.run fl).S = some v → (g.run fl).S = some v' →
      ((Hist.merge h g).run fl).S = some w → v ≤ w ∧ v' ≤ w) := by
  obtain ⟨m, v0, e, hm, hv, h0⟩ := run_values hr h hp hs
  constructor
  · intro x v w h1 h2
    rw [e] at h1
    obtain rfl : v0 = v := by simpa using h1
    rw [Hist.run, e, Stat.pushF] at h2
    by_cases hl : (samples h).length + 1 = 1
    · simp only [hl, if_true] at h2
      have : v0 = w := by simpa using h2
      exact this.le
    · simp only [hl, if_false, lift2, Option.map_some] at h2
      have := Option.some.inj h2
      rw [← this]
      exact spread_push hr hv (Nat.cast_nonneg _) (Nat.cast_nonneg _)
  · intro g v v' w hpg hsg h1 h2 h3
    obtain ⟨m', v0', e', hm', hv', h0'⟩ := run_values hr g hpg hsg
    rw [e] at h1
    rw [e'] at h2
    obtain rfl : v0 = v := by simpa using h1
    obtain rfl : v0' = v' := by simpa using h2
    rw [Hist.run, e, e', Stat.updateF] at h3
    by_cases hl : (samples h).length + (samples g).length = 0
    · simp [hl] at h3
    · simp only [hl, if_false, lift2, Option.map_some] at h3
      have := Option.some.inj h3
      rw [← this]
      have hx : fl (v0 + v0') ≤ fl (fl (v0 + v0') + fl (fl (fl (fl (fl (m - m') * fl (m - m')) * (samples h).length) * (samples g).length) /
          (((samples h).length + (samples g).length : ℕ) : ℚ))) := by
        have : 0 ≤ fl (fl (fl (fl (fl (m - m') * fl (m - m')) * (samples h).length) * (samples g).length) /
          (((samples h).length + (samples g).length : ℕ) : ℚ)) :=
          fl_nonneg hr (div_nonneg (fl_nonneg hr (mul_nonneg (fl_nonneg hr (mul_nonneg (fl_nonneg hr (mul_self_nonneg _)) (Nat.cast_nonneg _)))
            (Nat.cast_nonneg _))) (Nat.cast_nonneg _))
        have h := hr.mono _ _ (le_add_of_nonneg_right this : fl (v0 + v0') ≤ fl (v0 + v0') + _)
        rwa [hr.idem] at h
      have ha := hr.mono v0 (v0 + v0') (by linarith)
      have hb := hr.mono v0' (v0 + v0') (by linarith)
      rw [hv] at ha
      rw [hv'] at hb
      exact ⟨le_trans ha hx, le_trans hb hx⟩

/-- Two samples 1 and 2 give the sum of squares 1/2; merging with a sample 4 gives 14/3 up to rounding. -/
example : ∃ v w, ((Hist.push (same 1 1) 2).run double).S = some v ∧ ((Hist.merge (.push (same 1 1) 2) (same 4 1)).run double).S = some w ∧
    v = 1 / 2 ∧ 4 < w ∧ w < 5 := by
  refine ⟨_, _, rfl, rfl, ?_, ?_, ?_⟩ <;> decide +kernel

/-- Without merging, the mean lies between any bounds of the samples, in spite of the rounding. -/
theorem C249_between_partial {fl : ℚ → ℚ} {u : ℚ} (hr : Rounding fl u) (h0 : 0 ≤ u) (h1 : u ≤ 1 / 100) {h : Hist} {a b : ℚ} (hp : Pushed h)
    (hn : samples h ≠ []) (hs : ∀ x ∈ samples h, fl x = x ∧ a ≤ x ∧ x ≤ b) : ∃ m, (h.run fl).M = some m ∧ a ≤ m ∧ m ≤ b := by
  obtain ⟨m, v, e, -, h2, h3⟩ := run_hull hr h0 h1 h hp hn hs
  exact ⟨m, by rw [e], h2, h3⟩

example : ∃ m, ((Hist.push (.push (.push .new 1) 2) 4).run double).M = some m ∧ 1 ≤ m ∧ m ≤ 4 :=
  C249_between_partial (toNearest_rounding (p := 53) (by norm_num)) (by norm_num) (by norm_num) (by simp [Pushed]) (by simp [samples])
    (by simp [samples]; decide +kernel)

/-- The mean is near the mean of the samples: the error is at most `7 u B` for each push and each merge, where `B` bounds the
samples. -/
theorem C249_error {fl : ℚ → ℚ} {u : ℚ} (hr : Rounding fl u) (h0 : 0 ≤ u) (h1 : u ≤ 1 / 100) {h : Hist} {B : ℚ} (hp : Proper h)
    (hn : samples h ≠ []) (hs : ∀ x ∈ samples h, fl x = x ∧ |x| ≤ B) (hc : 7 * u * calls h ≤ 1) :
    ∃ m, (h.run fl).M = some m ∧ |m - mean (samples h)| ≤ 7 * u * B * calls h := by
  have hB : 0 ≤ B := by
    obtain ⟨x, hx⟩ := List.exists_mem_of_ne_nil _ hn
    exact le_trans (abs_nonneg x) (hs x hx).2
  obtain ⟨m, v, e, he, -⟩ := run_err hr h0 h1 hB h hp hs hc
  have hl : (0 : ℚ) < (samples h).length := by exact_mod_cast List.length_pos_iff.2 hn
  refine ⟨m, by rw [e], ?_⟩
  have : ((samples h).length : ℚ) * m - (samples h).sum = (samples h).length * (m - mean (samples h)) := by
    rw [mean]; field_simp
  rw [this, abs_mul, abs_of_pos hl] at he
  exact le_of_mul_le_mul_left he hl

/-- In double precision: an error of at most `1e-9` for a million pushes and merges of numbers of at most 1. -/
theorem C249_million {h : Hist} (hp : Proper h) (hn : samples h ≠ []) (hs : ∀ x ∈ samples h, double x = x ∧ |x| ≤ 1)
    (hc : calls h ≤ 1000000) : ∃ m, (h.run double).M = some m ∧ |m - mean (samples h)| ≤ 1 / 10 ^ 9 := by
  have hq : (calls h : ℚ) ≤ 1000000 := by exact_mod_cast hc
  obtain ⟨m, e, he⟩ := C249_error (toNearest_rounding (p := 53) (by norm_num)) (u := 1 / 2 ^ 53) (by norm_num) (by norm_num) hp hn hs (by
    have : (7 * (1 / 2 ^ 53) * 1000000 : ℚ) ≤ 1 := by norm_num
    exact le_trans (mul_le_mul_of_nonneg_left hq (by norm_num)) this)
  refine ⟨m, e, le_trans he ?_⟩
  have : (7 * (1 / 2 ^ 53) * 1 * 1000000 : ℚ) ≤ 1 / 10 ^ 9 := by norm_num
  exact le_trans (mul_le_mul_of_nonneg_left hq (by norm_num)) this

example : ∃ m, ((Hist.merge (.push (same (1 / 2) 1) 1) (same (1 / 4) 1)).run double).M = some m ∧ |m - 7 / 12| ≤ 1 / 10 ^ 9 := by
  have := C249_million (h := .merge (.push (same (1 / 2) 1) 1) (same (1 / 4) 1)) (by simp [Proper, same, samples]) (by simp [samples, same])
    (by simp [samples, same]; refine ⟨⟨?_, ?_⟩, ?_, ?_, ?_⟩ <;> decide +kernel) (by simp [calls, same])
  have e : mean (samples (.merge (.push (same (1 / 2) 1) 1) (same (1 / 4) 1))) = 7 / 12 := by decide +kernel
  rwa [e] at this

/-- The exact model is the case without rounding. -/
theorem C249_exact : (∀ s x, Stat.pushF id s x = s.push x) ∧ (∀ s o, Stat.updateF id s o = s.update o) ∧ (∀ s, Stat.varF id s = s.var) := by
  refine ⟨fun s x => rfl, fun s o => ?_, fun s => rfl⟩
  simp only [Stat.updateF, Stat.update, id]
  by_cases h : s.n + o.n = 0
  · simp [h]
  · simp only [h, if_false]
    cases s.M <;> cases o.M <;> rfl

/-- Normalisation: the divisor is not 0, the order of two states is kept, the mean becomes 0, and everything becomes 0 if the
deviation is below `1e-7`. -/
theorem C249_normalise {fl : ℚ → ℚ} {u : ℚ} (hr : Rounding fl u) (mean std : ℚ) (h0 : 0 ≤ std) :
    0 < fl (std + fl (1 / 100000000)) ∧
    (∀ x y, x ≤ y → normF fl mean (scaleF fl std) x ≤ normF fl mean (scaleF fl std) y) ∧
    normF fl mean (scaleF fl std) mean = 0 ∧
    (∀ x, std < fl (1 / 10000000) → normF fl mean (scaleF fl std) x = 0) ∧
    (∀ x, fl (1 / 10000000) ≤ std → normF fl mean (scaleF fl std) x = fl (fl (x - mean) / fl (std + fl (1 / 100000000)))) := by
  have pos : ∀ y : ℚ, 0 < y → 0 < fl y := by
    intro y hy
    have hn := fl_nonneg hr hy.le
    rcases hn.lt_or_eq with h | h
    · exact h
    · have := hr.err y
      rw [← h] at this
      simp at this
      exact absurd this (ne_of_gt hy)
  have hd : 0 < fl (std + fl (1 / 100000000)) := pos _ (add_pos_of_nonneg_of_pos h0 (pos _ (by norm_num)))
  have yes : std < fl (1 / 10000000) → scaleF fl std = none := fun h => if_pos h
  have no : ¬ std < fl (1 / 10000000) → scaleF fl std = some std := fun h => if_neg h
  refine ⟨hd, ?_, ?_, ?_, ?_⟩
  · intro x y hxy
    by_cases hc : std < fl (1 / 10000000)
    · rw [yes hc]
      exact le_refl (0 : ℚ)
    · rw [no hc]
      exact hr.mono _ _ (div_le_div_of_nonneg_right (hr.mono _ _ (by linarith)) hd.le)
  · by_cases hc : std < fl (1 / 10000000)
    · rw [yes hc]
      rfl
    · rw [no hc, normF, sub_self, hr.zero, zero_div, hr.zero]
  · intro x hx
    rw [yes hx]
    rfl
  · intro x hx
    rw [no (not_lt.2 hx)]
    rfl

example : normF double 1 (scaleF double (1 / 2)) 2 < 2 ∧ normF double 1 (scaleF double 0) 2 = 0 := by decide +kernel

end Machin.Ars
