import Verif.Project.Round
import Verif.Project.RoundSpec
import Verif.Project.Lemmas
import Mathlib.Tactic.Linarith
import Mathlib.Tactic.Ring
import Mathlib.Tactic.FieldSimp
import Mathlib.Tactic.Positivity
import Mathlib.Tactic.NormNum

/-! # Lemmas on the distributional target in floating point -/

namespace Machin.Project

open Spec Machin.Prio.Spec

section rounding

variable {fl : ℚ → ℚ} {u : ℚ}

theorem fl_nonneg (hr : Rounding fl u) {x : ℚ} (hx : 0 ≤ x) : 0 ≤ fl x := by
  have := hr.mono 0 x hx
  rwa [hr.zero] at this

theorem fl_le (hr : Rounding fl u) {x : ℚ} (hx : 0 ≤ x) : (1 - u) * fl x ≤ x := by
  have h := hr.err x
  rw [abs_of_nonneg (fl_nonneg hr hx)] at h
  have := (abs_le.1 h).2
  linarith

theorem fl_ge (hr : Rounding fl u) {x : ℚ} (hx : 0 ≤ x) : x ≤ (1 + u) * fl x := by
  have h := hr.err x
  rw [abs_of_nonneg (fl_nonneg hr hx)] at h
  have := (abs_le.1 h).1
  linarith

/-- Both bounds as multiples of the exact value. -/
theorem fl_mul (hr : Rounding fl u) (h0 : 0 ≤ u) (h1 : u ≤ 1 / 2) {x : ℚ} (hx : 0 ≤ x) : (1 - u) * x ≤ fl x ∧ fl x ≤ (1 + 2 * u) * x := by
  have hn := fl_nonneg hr hx
  have ha := fl_le hr hx
  have hb := fl_ge hr hx
  constructor
  · nlinarith [mul_nonneg h0 h0, mul_nonneg (mul_nonneg h0 h0) hn]
  · nlinarith [mul_nonneg h0 hn, mul_nonneg (mul_nonneg h0 (by linarith : 0 ≤ 1 - 2 * u)) hn]

/-- A number between two numbers that are kept is rounded between them. -/
theorem fl_between (hr : Rounding fl u) {a b x : ℚ} (ha : fl a = a) (hb : fl b = b) (h1 : a ≤ x) (h2 : x ≤ b) : a ≤ fl x ∧ fl x ≤ b :=
  ⟨ha ▸ hr.mono a x h1, hb ▸ hr.mono x b h2⟩

end rounding

variable {d f : ℚ → ℚ} {v u M : ℚ} {s : Support}

/-- The ends of the clamp lie in the support and are near the exact ones. -/
theorem ends (ha : Arith d f v u) (hs : Given d f s M) (he : d eps ≤ s.vmax - s.vmin) :
    (s.vmin ≤ lowF d f s ∧ lowF d f s ≤ s.vmax ∧ |lowF d f s - (s.vmin + d eps)| ≤ (u + v) * M) ∧
    (s.vmin ≤ highF d f s ∧ highF d f s ≤ s.vmax ∧ |highF d f s - (s.vmax - d eps)| ≤ (u + v) * M) := by
  have he0 : 0 ≤ d eps := fl_nonneg ha.py eps_pos.le
  have key : ∀ y, s.vmin ≤ y → y ≤ s.vmax → (s.vmin ≤ f (d y) ∧ f (d y) ≤ s.vmax ∧ |f (d y) - y| ≤ (u + v) * M) := by
    intro y h1 h2
    have hd := fl_between ha.py hs.minD hs.maxD h1 h2
    have hf := fl_between ha.el hs.minF hs.maxF hd.1 hd.2
    refine ⟨hf.1, hf.2, ?_⟩
    have e1 := ha.py.err y
    have e2 := ha.el.err (d y)
    have m1 : |d y| ≤ M := abs_le.2 ⟨by linarith [hs.minM, hd.1], by linarith [hs.maxM, hd.2]⟩
    have m2 : |f (d y)| ≤ M := abs_le.2 ⟨by linarith [hs.minM, hf.1], by linarith [hs.maxM, hf.2]⟩
    have b1 := mul_le_mul_of_nonneg_left m1 ha.pos
    have b2 := mul_le_mul_of_nonneg_left m2 (le_trans ha.pos ha.le)
    have : f (d y) - y = (f (d y) - d y) + (d y - y) := by ring
    rw [this]
    have := abs_add_le (f (d y) - d y) (d y - y)
    linarith
  exact ⟨key _ (by linarith) (by linarith), key _ (by linarith) (by linarith)⟩

/-- The rounded distance of the atoms. -/
theorem deltaF_bounds (ha : Arith d f v u) (hs : Given d f s M) :
    s.vmax - s.vmin ≤ (1 + v) * (1 + v) * (1 + u) * (((s.atoms : ℚ) - 1) * deltaF d f s) ∧
    (1 - v) * (1 - v) * (1 - u) * (((s.atoms : ℚ) - 1) * deltaF d f s) ≤ s.vmax - s.vmin ∧ 0 < deltaF d f s := by
  have hn : (2 : ℚ) ≤ s.atoms := by exact_mod_cast hs.atoms
  have hN : (0 : ℚ) < (s.atoms : ℚ) - 1 := by linarith
  have hD : 0 < s.vmax - s.vmin := sub_pos.2 hs.less
  have hv0 := ha.pos
  have hu0 : 0 ≤ u := le_trans ha.pos ha.le
  have hv1 : v ≤ 1 / 100 := le_trans ha.le ha.small
  have hu1 := ha.small
  unfold deltaF
  generalize hD1 : d (s.vmax - s.vmin) = D1
  have a1 := fl_le ha.py hD.le
  have b1 := fl_ge ha.py hD.le
  have n1 := fl_nonneg ha.py hD.le
  rw [hD1] at a1 b1 n1
  have hq : 0 ≤ D1 / ((s.atoms : ℚ) - 1) := div_nonneg n1 hN.le
  generalize hD2 : d (D1 / ((s.atoms : ℚ) - 1)) = D2
  have a2 := fl_le ha.py hq
  have b2 := fl_ge ha.py hq
  have n2 := fl_nonneg ha.py hq
  rw [hD2] at a2 b2 n2
  have a3 := fl_le ha.el n2
  have b3 := fl_ge ha.el n2
  have n3 := fl_nonneg ha.el n2
  generalize f D2 = D3 at *
  rw [le_div_iff₀ hN] at a2
  rw [div_le_iff₀ hN] at b2
  have up : s.vmax - s.vmin ≤ (1 + v) * (1 + v) * (1 + u) * (((s.atoms : ℚ) - 1) * D3) := by
    calc s.vmax - s.vmin ≤ (1 + v) * D1 := b1
      _ ≤ (1 + v) * ((1 + v) * D2 * ((s.atoms : ℚ) - 1)) := mul_le_mul_of_nonneg_left b2 (by linarith)
      _ ≤ (1 + v) * ((1 + v) * ((1 + u) * D3) * ((s.atoms : ℚ) - 1)) := by
          apply mul_le_mul_of_nonneg_left _ (by linarith)
          apply mul_le_mul_of_nonneg_right _ hN.le
          exact mul_le_mul_of_nonneg_left b3 (by linarith)
      _ = _ := by ring
  refine ⟨up, ?_, ?_⟩
  · calc (1 - v) * (1 - v) * (1 - u) * (((s.atoms : ℚ) - 1) * D3)
        = (1 - v) * ((1 - v) * ((1 - u) * D3) * ((s.atoms : ℚ) - 1)) := by ring
      _ ≤ (1 - v) * ((1 - v) * D2 * ((s.atoms : ℚ) - 1)) := by
          apply mul_le_mul_of_nonneg_left _ (by linarith)
          apply mul_le_mul_of_nonneg_right _ hN.le
          exact mul_le_mul_of_nonneg_left a3 (by linarith)
      _ ≤ (1 - v) * D1 := mul_le_mul_of_nonneg_left a2 (by linarith)
      _ ≤ _ := a1
  · rcases n3.lt_or_eq with h | h
    · exact h
    · rw [← h] at up
      simp only [mul_zero] at up
      linarith

/-- The clamped value lies between the ends, or is the upper end. -/
theorem clampF_bounds (d f : ℚ → ℚ) (s : Support) (x : ℚ) (h : lowF d f s ≤ highF d f s) :
    lowF d f s ≤ clampF d f s x ∧ clampF d f s x ≤ highF d f s :=
  ⟨le_min (le_max_right _ _) h, min_le_right _ _⟩

theorem clamp_ends (ha : Arith d f v u) (hs : Given d f s M) (x : ℚ) (he : 2 * d eps ≤ s.vmax - s.vmin) :
    lowF d f s ≤ clampF d f s x ∧ clampF d f s x ≤ highF d f s := by
  apply clampF_bounds
  exact ha.el.mono _ _ (ha.py.mono _ _ (by linarith))

/-- The position in terms of the clamped value. -/
theorem posF_bounds (ha : Arith d f v u) (hs : Given d f s M) (x : ℚ) (hx : s.vmin ≤ clampF d f s x) :
    0 ≤ posF d f s x ∧
    (1 - u) * (1 - u) * (posF d f s x * deltaF d f s) ≤ clampF d f s x - s.vmin ∧
    clampF d f s x - s.vmin ≤ (1 + u) * (1 + u) * (posF d f s x * deltaF d f s) := by
  have hd := (deltaF_bounds ha hs).2.2
  have hu0 : 0 ≤ u := le_trans ha.pos ha.le
  have hu1 := ha.small
  unfold posF
  rw [hs.minF]
  have hx' : 0 ≤ clampF d f s x - s.vmin := by linarith
  have a1 := fl_le ha.el hx'
  have b1 := fl_ge ha.el hx'
  have n1 := fl_nonneg ha.el hx'
  generalize f (clampF d f s x - s.vmin) = W at *
  have hq : 0 ≤ W / deltaF d f s := div_nonneg n1 hd.le
  have a2 := fl_le ha.el hq
  have b2 := fl_ge ha.el hq
  have n2 := fl_nonneg ha.el hq
  generalize f (W / deltaF d f s) = b at *
  rw [le_div_iff₀ hd] at a2
  rw [div_le_iff₀ hd] at b2
  refine ⟨n2, ?_, ?_⟩
  · calc (1 - u) * (1 - u) * (b * deltaF d f s) = (1 - u) * ((1 - u) * b * deltaF d f s) := by ring
      _ ≤ (1 - u) * W := mul_le_mul_of_nonneg_left a2 (by linarith)
      _ ≤ _ := a1
  · calc clampF d f s x - s.vmin ≤ (1 + u) * W := b1
      _ ≤ (1 + u) * ((1 + u) * b * deltaF d f s) := mul_le_mul_of_nonneg_left b2 (by linarith)
      _ = _ := by ring

/-- Without any condition on the margin: positions are at most a rounding error beyond the last atom. -/
theorem posF_le (ha : Arith d f v u) (hs : Given d f s M) (x : ℚ) (he : 2 * d eps ≤ s.vmax - s.vmin) :
    0 ≤ posF d f s x ∧ posF d f s x ≤ (1 + 4 * u + 3 * v) * ((s.atoms : ℚ) - 1) := by
  have he0 : 0 ≤ d eps := fl_nonneg ha.py eps_pos.le
  have hE := ends ha hs (by linarith)
  have hc := clamp_ends ha hs x he
  have hb := posF_bounds ha hs x (by linarith [hE.1.1])
  have hd := deltaF_bounds ha hs
  have hu0 : 0 ≤ u := le_trans ha.pos ha.le
  have hv0 := ha.pos
  have hv1 : v ≤ 1 / 100 := le_trans ha.le ha.small
  have hu1 := ha.small
  refine ⟨hb.1, ?_⟩
  generalize posF d f s x = b at *
  have hdp := hd.2.2
  have h1 : (1 - u) * (1 - u) * (b * deltaF d f s) ≤ (1 + v) * (1 + v) * (1 + u) * (((s.atoms : ℚ) - 1) * deltaF d f s) := by
    linarith [hb.2.1, hd.1, hc.2, hE.2.2.1]
  have h2 : (1 - u) * (1 - u) * b ≤ (1 + v) * (1 + v) * (1 + u) * ((s.atoms : ℚ) - 1) := by
    refine le_of_mul_le_mul_right ?_ hdp
    linarith
  have hN : (0 : ℚ) ≤ (s.atoms : ℚ) - 1 := by
    have : (2 : ℚ) ≤ s.atoms := by exact_mod_cast hs.atoms
    linarith
  have h3 : (1 + v) * (1 + v) * (1 + u) ≤ (1 - u) * (1 - u) * (1 + 4 * u + 3 * v) := by
    nlinarith [mul_nonneg hu0 hv0, mul_nonneg hu0 hu0, mul_nonneg hv0 hv0, mul_nonneg hu0 (sub_nonneg.2 hu1), mul_nonneg hv0 (sub_nonneg.2 hv1),
      mul_nonneg hu0 (sub_nonneg.2 hv1), mul_nonneg hv0 (sub_nonneg.2 hu1), mul_nonneg (mul_nonneg hu0 hu0) hv0, mul_nonneg (mul_nonneg hu0 hu0) hu0,
      mul_nonneg (mul_nonneg hu0 hu0) (sub_nonneg.2 hu1), mul_nonneg (mul_nonneg hu0 hv0) (sub_nonneg.2 hu1), mul_nonneg (mul_nonneg hv0 hv0) (sub_nonneg.2 hu1)]
  have h4 := mul_le_mul_of_nonneg_right h3 hN
  have hp : 0 < (1 - u) * (1 - u) := mul_pos (by linarith) (by linarith)
  refine le_of_mul_le_mul_left ?_ hp
  linarith

/-- With a margin that survives the rounding: positions lie strictly between the first and the last atom. -/
theorem posF_inside (ha : Arith d f v u) (hs : Given d f s M) (x : ℚ) (he : 2 * d eps ≤ s.vmax - s.vmin) (hg : (7 * u + 5 * v) * M < d eps) :
    0 < posF d f s x ∧ posF d f s x < (s.atoms : ℚ) - 1 := by
  have he0 : 0 ≤ d eps := fl_nonneg ha.py eps_pos.le
  have hE := ends ha hs (by linarith)
  have hc := clamp_ends ha hs x he
  have hb := posF_bounds ha hs x (by linarith [hE.1.1])
  have hd := deltaF_bounds ha hs
  have hu0 : 0 ≤ u := le_trans ha.pos ha.le
  have hv0 := ha.pos
  have hv1 : v ≤ 1 / 100 := le_trans ha.le ha.small
  have hu1 := ha.small
  have hM : 0 ≤ M := by linarith [hs.minM, hs.maxM, hs.less]
  have l1 := (abs_le.1 hE.1.2.2).1
  have h1 := (abs_le.1 hE.2.2.2).2
  have hMu := mul_nonneg hu0 hM
  have hMv := mul_nonneg hv0 hM
  have hdp := hd.2.2
  generalize posF d f s x = b at *
  generalize clampF d f s x = c at *
  generalize deltaF d f s = D3 at *
  constructor
  · rcases hb.1.lt_or_eq with h | h
    · exact h
    · exfalso
      rw [← h] at hb
      have := hb.2.2
      simp only [zero_mul, mul_zero] at this
      nlinarith
  · by_contra hcon
    have hcon := not_lt.1 hcon
    have hN : ((s.atoms : ℚ) - 1) * D3 ≤ b * D3 := mul_le_mul_of_nonneg_right hcon hdp.le
    have hP : 0 ≤ ((s.atoms : ℚ) - 1) * D3 := by
      apply mul_nonneg _ hdp.le
      have : (2 : ℚ) ≤ s.atoms := by exact_mod_cast hs.atoms
      linarith
    generalize ((s.atoms : ℚ) - 1) * D3 = P at *
    have h2 : (1 - u) * (1 - u) * P ≤ s.vmax - s.vmin - d eps + (u + v) * M := by
      have := mul_le_mul_of_nonneg_left hN (mul_nonneg (by linarith) (by linarith) : (0 : ℚ) ≤ (1 - u) * (1 - u))
      linarith [hb.2.1]
    have h3 : (1 - 3 * u - 2 * v) * ((1 + v) * (1 + v) * (1 + u)) ≤ (1 - u) * (1 - u) := by
      nlinarith [mul_nonneg hu0 hv0, mul_nonneg hu0 hu0, mul_nonneg hv0 hv0, mul_nonneg (mul_nonneg hu0 hu0) hv0, mul_nonneg (mul_nonneg hu0 hv0) hv0,
        mul_nonneg (mul_nonneg hv0 hv0) hv0, mul_nonneg (mul_nonneg hu0 hu0) (mul_nonneg hv0 hv0), mul_nonneg (mul_nonneg hu0 hv0) (mul_nonneg hv0 hv0)]
    have h4 : (1 - 3 * u - 2 * v) * (s.vmax - s.vmin) ≤ (1 - u) * (1 - u) * P := by
      calc (1 - 3 * u - 2 * v) * (s.vmax - s.vmin) ≤ (1 - 3 * u - 2 * v) * ((1 + v) * (1 + v) * (1 + u) * P) :=
            mul_le_mul_of_nonneg_left hd.1 (by linarith)
        _ = (1 - 3 * u - 2 * v) * ((1 + v) * (1 + v) * (1 + u)) * P := by ring
        _ ≤ _ := mul_le_mul_of_nonneg_right h3 hP
    have hW : s.vmax - s.vmin ≤ 2 * M := by linarith [hs.minM, hs.maxM]
    have h5 := mul_le_mul_of_nonneg_left hW (by linarith : (0 : ℚ) ≤ 3 * u + 2 * v)
    linarith

end Machin.Project
