import Verif.Project.RoundLemmas

/-! # Lemmas on the two ends of the support and on the sums in floating point -/

namespace Machin.Project

open Spec Machin.Prio.Spec

variable {d f : ℚ → ℚ} {v u M : ℚ} {s : Support}

/-- At the upper end the position lies between the last two atoms. -/
theorem posF_high (ha : Arith d f v u) (hs : Given d f s M) (x : ℚ) (hx : highF d f s ≤ x) (he : 2 * d eps * ((s.atoms : ℚ) - 1) ≤ s.vmax - s.vmin)
    (hg : (7 * u + 5 * v) * M < d eps) : (s.atoms : ℚ) - 2 < posF d f s x := by
  have hn : (2 : ℚ) ≤ s.atoms := by exact_mod_cast hs.atoms
  have he0 : 0 ≤ d eps := fl_nonneg ha.py eps_pos.le
  have he2 : 2 * d eps ≤ s.vmax - s.vmin := by nlinarith
  have hE := ends ha hs (by linarith)
  have hc : clampF d f s x = highF d f s := min_eq_right (le_trans hx (le_max_left _ _))
  have hb := posF_bounds ha hs x (by rw [hc]; exact hE.2.1)
  rw [hc] at hb
  have hd := deltaF_bounds ha hs
  have hu0 : 0 ≤ u := le_trans ha.pos ha.le
  have hv0 := ha.pos
  have hv1 : v ≤ 1 / 100 := le_trans ha.le ha.small
  have hu1 := ha.small
  have hM : 0 ≤ M := by linarith [hs.minM, hs.maxM, hs.less]
  have h1 := (abs_le.1 hE.2.2.2).1
  have hdp := hd.2.2
  generalize posF d f s x = b at *
  generalize deltaF d f s = D3 at *
  by_contra hcon
  have hcon := not_lt.1 hcon
  generalize hNe : (s.atoms : ℚ) - 1 = N at *
  have hN1 : 1 ≤ N := by linarith
  have hW : s.vmax - s.vmin ≤ 2 * M := by linarith [hs.minM, hs.maxM]
  generalize hDe : s.vmax - s.vmin = D at *
  have hD : 0 < D := by rw [← hDe]; exact sub_pos.2 hs.less
  -- `b * D3 ≤ (N - 1) * D3`
  have h2 : b * D3 ≤ (N - 1) * D3 := mul_le_mul_of_nonneg_right (by linarith) hdp.le
  have h3 : D - d eps - (u + v) * M ≤ (1 + u) * (1 + u) * ((N - 1) * D3) := by
    have := mul_le_mul_of_nonneg_left h2 (mul_nonneg (by linarith) (by linarith) : (0 : ℚ) ≤ (1 + u) * (1 + u))
    linarith [hb.2.2]
  -- the distance of the atoms
  have h4 : (1 + u) * (1 + u) * (1 - 3 * u - 2 * v) ≤ (1 - v) * (1 - v) * (1 - u) := by
    nlinarith [mul_nonneg hu0 hv0, mul_nonneg hu0 hu0, mul_nonneg hv0 hv0, mul_nonneg (mul_nonneg hu0 hu0) hv0, mul_nonneg (mul_nonneg hu0 hv0) hv0,
      mul_nonneg (mul_nonneg hu0 hu0) hu0, mul_nonneg (mul_nonneg hv0 hv0) (sub_nonneg.2 hu1), mul_nonneg hv0 (sub_nonneg.2 ha.le)]
  have h5 : (1 - 3 * u - 2 * v) * ((1 + u) * (1 + u) * (N * D3)) ≤ D := by
    have hp : 0 ≤ N * D3 := mul_nonneg (by linarith) hdp.le
    have := mul_le_mul_of_nonneg_right h4 hp
    linarith [hd.2.1]
  -- `N * (D - e - (u + v) M) * (1 - 3u - 2v) ≤ (N - 1) * D`
  have h6 : (1 - 3 * u - 2 * v) * (N * (D - d eps - (u + v) * M)) ≤ (N - 1) * D := by
    have a := mul_le_mul_of_nonneg_left h3 (mul_nonneg (by linarith) (by linarith) : (0 : ℚ) ≤ (1 - 3 * u - 2 * v) * N)
    have b := mul_le_mul_of_nonneg_left h5 (by linarith : (0 : ℚ) ≤ N - 1)
    have e : (1 - 3 * u - 2 * v) * N * ((1 + u) * (1 + u) * ((N - 1) * D3)) = (N - 1) * ((1 - 3 * u - 2 * v) * ((1 + u) * (1 + u) * (N * D3))) := by ring
    rw [e] at a
    linarith
  -- `N * (e + (u + v) M + (3u + 2v) D) < D`
  have h7 := mul_le_mul_of_nonneg_left hW (by linarith : (0 : ℚ) ≤ 3 * u + 2 * v)
  have h8 : d eps + (u + v) * M + (3 * u + 2 * v) * D < 2 * d eps := by linarith
  have h9 : N * (d eps + (u + v) * M + (3 * u + 2 * v) * D) < N * (2 * d eps) := mul_lt_mul_of_pos_left h8 (by linarith)
  have h10 : 0 ≤ (3 * u + 2 * v) * (N * (d eps + (u + v) * M)) :=
    mul_nonneg (by linarith) (mul_nonneg (by linarith) (add_nonneg he0 (mul_nonneg (by linarith) hM)))
  nlinarith

/-- At the lower end the position lies between the first two atoms. -/
theorem posF_low (ha : Arith d f v u) (hs : Given d f s M) (x : ℚ) (hx : x ≤ lowF d f s) (he : 2 * d eps * ((s.atoms : ℚ) - 1) ≤ s.vmax - s.vmin)
    (hg : (7 * u + 5 * v) * M < d eps) : posF d f s x < 1 := by
  have hn : (2 : ℚ) ≤ s.atoms := by exact_mod_cast hs.atoms
  have he0 : 0 ≤ d eps := fl_nonneg ha.py eps_pos.le
  have he2 : 2 * d eps ≤ s.vmax - s.vmin := by nlinarith
  have hE := ends ha hs (by linarith)
  have hlh : lowF d f s ≤ highF d f s := ha.el.mono _ _ (ha.py.mono _ _ (by linarith))
  have hc : clampF d f s x = lowF d f s := by
    unfold clampF
    rw [max_eq_right hx, min_eq_left hlh]
  have hb := posF_bounds ha hs x (by rw [hc]; exact hE.1.1)
  rw [hc] at hb
  have hd := deltaF_bounds ha hs
  have hu0 : 0 ≤ u := le_trans ha.pos ha.le
  have hv0 := ha.pos
  have hv1 : v ≤ 1 / 100 := le_trans ha.le ha.small
  have hu1 := ha.small
  have hM : 0 ≤ M := by linarith [hs.minM, hs.maxM, hs.less]
  have h1 := (abs_le.1 hE.1.2.2).2
  have hdp := hd.2.2
  generalize posF d f s x = b at *
  generalize deltaF d f s = D3 at *
  by_contra hcon
  have hcon := not_lt.1 hcon
  generalize hNe : (s.atoms : ℚ) - 1 = N at *
  have hN1 : 1 ≤ N := by linarith
  have hMu := mul_nonneg hu0 hM
  have hMv := mul_nonneg hv0 hM
  have h2 : 1 * D3 ≤ b * D3 := mul_le_mul_of_nonneg_right hcon hdp.le
  have q : (1 - 2 / 100) * D3 ≤ d eps + (u + v) * M := by
    have h3 : (1 - 2 / 100) ≤ (1 - u) * (1 - u) := by nlinarith
    have h4 := mul_le_mul_of_nonneg_right h3 (mul_nonneg hb.1 hdp.le)
    linarith [hb.2.1]
  have r : 2 * d eps * N ≤ (1 + 4 / 100) * (N * D3) := by
    have h3 : (1 + v) * (1 + v) * (1 + u) ≤ 1 + 4 / 100 := by nlinarith [mul_nonneg hu0 hv0, mul_nonneg hv0 hv0, mul_nonneg (mul_nonneg hv0 hv0) hu0]
    have h4 := mul_le_mul_of_nonneg_right h3 (mul_nonneg (by linarith) hdp.le : (0 : ℚ) ≤ N * D3)
    linarith [hd.1]
  have r' : 2 * d eps ≤ (1 + 4 / 100) * D3 := by
    refine le_of_mul_le_mul_right ?_ (by linarith : (0 : ℚ) < N)
    linarith
  linarith

/-! ### The weights of one column -/

/-- A position on an atom: both weights are 0. -/
theorem weights_on (hr : Rounding f u) {b p : ℚ} (h : (⌊b⌋ : ℚ) = b) : lowerF f b p = 0 ∧ upperF f b p = 0 := by
  have hc : (⌈b⌉ : ℚ) = b := by
    have : ⌈b⌉ = ⌊b⌋ := by rw [← h, Int.ceil_intCast, Int.floor_intCast]
    rw [this, h]
  unfold lowerF upperF
  rw [hc, h, sub_self, hr.zero, zero_mul, hr.zero]
  exact ⟨rfl, rfl⟩

theorem ceil_off {b : ℚ} (h : (⌊b⌋ : ℚ) ≠ b) : ⌈b⌉ = ⌊b⌋ + 1 := by
  have h1 : (⌊b⌋ : ℚ) < b := lt_of_le_of_ne (Int.floor_le b) h
  rw [Int.ceil_eq_iff]
  push_cast
  exact ⟨by linarith, (Int.lt_floor_add_one b).le⟩

/-- A rounded product with a rounded factor. -/
theorem twice (hr : Rounding f u) (h0 : 0 ≤ u) (h1 : u ≤ 1 / 2) {x p : ℚ} (hx : 0 ≤ x) (hp : 0 ≤ p) :
    (1 - u) ^ 2 * (x * p) ≤ f (f x * p) ∧ f (f x * p) ≤ (1 + 2 * u) ^ 2 * (x * p) := by
  have a := fl_mul hr h0 h1 hx
  have n := fl_nonneg hr hx
  have b := fl_mul hr h0 h1 (mul_nonneg n hp)
  have a1 := mul_le_mul_of_nonneg_right a.1 hp
  have a2 := mul_le_mul_of_nonneg_right a.2 hp
  constructor
  · calc (1 - u) ^ 2 * (x * p) = (1 - u) * ((1 - u) * x * p) := by ring
      _ ≤ (1 - u) * (f x * p) := mul_le_mul_of_nonneg_left a1 (by linarith)
      _ ≤ _ := b.1
  · calc f (f x * p) ≤ (1 + 2 * u) * (f x * p) := b.2
      _ ≤ (1 + 2 * u) * ((1 + 2 * u) * x * p) := mul_le_mul_of_nonneg_left a2 (by linarith)
      _ = _ := by ring

theorem weights_bounds (hr : Rounding f u) (h0 : 0 ≤ u) (h1 : u ≤ 1 / 2) {b p : ℚ} (hp : 0 ≤ p) :
    ((1 - u) ^ 2 * (((⌈b⌉ : ℚ) - b) * p) ≤ lowerF f b p ∧ lowerF f b p ≤ (1 + 2 * u) ^ 2 * (((⌈b⌉ : ℚ) - b) * p)) ∧
    ((1 - u) ^ 2 * ((b - (⌊b⌋ : ℚ)) * p) ≤ upperF f b p ∧ upperF f b p ≤ (1 + 2 * u) ^ 2 * ((b - (⌊b⌋ : ℚ)) * p)) :=
  ⟨twice hr h0 h1 (sub_nonneg.2 (Int.le_ceil b)) hp, twice hr h0 h1 (sub_nonneg.2 (Int.floor_le b)) hp⟩

theorem weights_nonneg (hr : Rounding f u) {b p : ℚ} (hp : 0 ≤ p) : 0 ≤ lowerF f b p ∧ 0 ≤ upperF f b p :=
  ⟨fl_nonneg hr (mul_nonneg (fl_nonneg hr (sub_nonneg.2 (Int.le_ceil b))) hp),
    fl_nonneg hr (mul_nonneg (fl_nonneg hr (sub_nonneg.2 (Int.floor_le b))) hp)⟩

/-! ### Sums of one entry -/

theorem foldF_length (f : ℚ → ℚ) (ps : List (Nat × ℚ)) : ∀ t : List ℚ,
    (ps.foldl (fun t iw => t.modify iw.1 (fun x => f (x + iw.2))) t).length = t.length := by
  induction ps with
  | nil => intro t; rfl
  | cons iw ps ih => intro t; rw [List.foldl_cons, ih, List.length_modify]

/-- The additions to one entry, in order. -/
theorem foldF_get (f : ℚ → ℚ) (ps : List (Nat × ℚ)) (m : Nat) : ∀ (t : List ℚ) (x : ℚ), t[m]? = some x →
    (ps.foldl (fun t iw => t.modify iw.1 (fun x => f (x + iw.2))) t)[m]? = some (ps.foldl (fun x iw => if iw.1 = m then f (x + iw.2) else x) x) := by
  induction ps with
  | nil => intro t x h; exact h
  | cons iw ps ih =>
    intro t x h
    rw [List.foldl_cons, List.foldl_cons]
    apply ih
    rw [List.getElem?_modify, h]
    split <;> simp_all

/-- Rounded additions of non-negative numbers. -/
theorem sums_bounds (hr : Rounding f u) (h0 : 0 ≤ u) (h1 : u ≤ 1 / 2) (m : Nat) (ps : List (Nat × ℚ)) (hp : ∀ iw ∈ ps, 0 ≤ iw.2) :
    ∀ x : ℚ, 0 ≤ x →
    0 ≤ ps.foldl (fun x iw => if iw.1 = m then f (x + iw.2) else x) x ∧
    (1 - u) ^ (ps.countP fun iw => iw.1 = m) * (x + (ps.map fun iw => if iw.1 = m then iw.2 else 0).sum) ≤
      ps.foldl (fun x iw => if iw.1 = m then f (x + iw.2) else x) x ∧
    ps.foldl (fun x iw => if iw.1 = m then f (x + iw.2) else x) x ≤
      (1 + 2 * u) ^ (ps.countP fun iw => iw.1 = m) * (x + (ps.map fun iw => if iw.1 = m then iw.2 else 0).sum) := by
  induction ps with
  | nil => intro x hx; simpa using hx
  | cons iw ps ih =>
    intro x hx
    have hw := hp iw List.mem_cons_self
    have hp' := fun jw hjw => hp jw (List.mem_cons_of_mem _ hjw)
    have hs : 0 ≤ (ps.map fun iw => if iw.1 = m then iw.2 else 0).sum := by
      apply List.sum_nonneg
      intro y hy
      obtain ⟨jw, hj, rfl⟩ := List.mem_map.1 hy
      split
      · exact hp' jw hj
      · exact le_rfl
    rw [List.foldl_cons, List.map_cons, List.sum_cons, List.countP_cons]
    by_cases hm : iw.1 = m
    · simp only [hm, if_true, decide_true]
      have hxw : 0 ≤ x + iw.2 := by linarith
      have hf := fl_mul hr h0 h1 hxw
      obtain ⟨i0, i1, i2⟩ := ih hp' (f (x + iw.2)) (fl_nonneg hr hxw)
      refine ⟨i0, le_trans ?_ i1, le_trans i2 ?_⟩
      · rw [pow_succ, mul_assoc]
        apply mul_le_mul_of_nonneg_left _ (pow_nonneg (by linarith) _)
        nlinarith
      · rw [pow_succ, mul_assoc]
        apply mul_le_mul_of_nonneg_left _ (pow_nonneg (by linarith) _)
        nlinarith
    · have hm' : (decide (iw.1 = m)) = false := decide_eq_false hm
      simp only [hm, if_false, decide_false, zero_add, add_zero, Bool.false_eq_true]
      exact ih hp' x hx

/-- Two phases of rounded additions of twice rounded weights. -/
theorem factors {u SL WL SU WU y1 y2 : ℚ} {n1 n2 n : Nat} (h0 : 0 ≤ u) (h1 : u ≤ 1 / 2) (c1 : n1 ≤ n) (c2 : n2 ≤ n) (hL0 : 0 ≤ SL) (hU0 : 0 ≤ SU)
    (hL : (1 - u) ^ 2 * SL ≤ WL ∧ WL ≤ (1 + 2 * u) ^ 2 * SL) (hU : (1 - u) ^ 2 * SU ≤ WU ∧ WU ≤ (1 + 2 * u) ^ 2 * SU)
    (hy1 : (1 - u) ^ n1 * WL ≤ y1 ∧ y1 ≤ (1 + 2 * u) ^ n1 * WL) (hy2 : (1 - u) ^ n2 * (y1 + WU) ≤ y2 ∧ y2 ≤ (1 + 2 * u) ^ n2 * (y1 + WU)) :
    (1 - u) ^ (2 * n + 2) * (SL + SU) ≤ y2 ∧ y2 ≤ (1 + 2 * u) ^ (2 * n + 2) * (SL + SU) := by
  have p0 : (0 : ℚ) ≤ 1 - u := by linarith
  have p1 : (1 : ℚ) - u ≤ 1 := by linarith
  have q1 : (1 : ℚ) ≤ 1 + 2 * u := by linarith
  have q0 : (0 : ℚ) ≤ 1 + 2 * u := by linarith
  have e : ∀ a : ℚ, a ^ (2 * n + 2) = a ^ n * (a ^ n * a ^ 2) := by intro a; rw [← pow_add, ← pow_add]; congr 1; omega
  have WL0 : 0 ≤ WL := le_trans (mul_nonneg (pow_nonneg p0 _) hL0) hL.1
  have WU0 : 0 ≤ WU := le_trans (mul_nonneg (pow_nonneg p0 _) hU0) hU.1
  have a1 : (1 - u) ^ n ≤ (1 - u) ^ n1 := pow_le_pow_of_le_one p0 p1 c1
  have a2 : (1 - u) ^ n ≤ (1 - u) ^ n2 := pow_le_pow_of_le_one p0 p1 c2
  have a3 : (1 - u) ^ n ≤ 1 := pow_le_one₀ p0 p1
  have b1 : (1 + 2 * u) ^ n1 ≤ (1 + 2 * u) ^ n := pow_le_pow_right₀ q1 c1
  have b2 : (1 + 2 * u) ^ n2 ≤ (1 + 2 * u) ^ n := pow_le_pow_right₀ q1 c2
  have b3 : 1 ≤ (1 + 2 * u) ^ n := one_le_pow₀ q1
  rw [e, e]
  constructor
  · have x1 : (1 - u) ^ n * ((1 - u) ^ 2 * SL) ≤ y1 :=
      le_trans (le_trans (mul_le_mul_of_nonneg_left hL.1 (pow_nonneg p0 _)) (mul_le_mul_of_nonneg_right a1 WL0)) hy1.1
    have x2 : (1 - u) ^ n * ((1 - u) ^ 2 * SU) ≤ WU := by
      have := mul_le_mul_of_nonneg_right a3 (mul_nonneg (pow_nonneg p0 2) hU0)
      linarith [hU.1]
    have z0 : 0 ≤ y1 + WU := add_nonneg (le_trans (mul_nonneg (pow_nonneg p0 _) WL0) hy1.1) WU0
    calc (1 - u) ^ n * ((1 - u) ^ n * (1 - u) ^ 2) * (SL + SU) = (1 - u) ^ n * ((1 - u) ^ n * ((1 - u) ^ 2 * SL) + (1 - u) ^ n * ((1 - u) ^ 2 * SU)) := by ring
      _ ≤ (1 - u) ^ n * (y1 + WU) := mul_le_mul_of_nonneg_left (add_le_add x1 x2) (pow_nonneg p0 _)
      _ ≤ (1 - u) ^ n2 * (y1 + WU) := mul_le_mul_of_nonneg_right a2 z0
      _ ≤ _ := hy2.1
  · have x1 : y1 ≤ (1 + 2 * u) ^ n * ((1 + 2 * u) ^ 2 * SL) :=
      le_trans hy1.2 (le_trans (mul_le_mul_of_nonneg_right b1 WL0) (mul_le_mul_of_nonneg_left hL.2 (pow_nonneg q0 _)))
    have x2 : WU ≤ (1 + 2 * u) ^ n * ((1 + 2 * u) ^ 2 * SU) := by
      have := mul_le_mul_of_nonneg_right b3 (mul_nonneg (pow_nonneg q0 2) hU0)
      linarith [hU.2]
    have z0 : 0 ≤ y1 + WU := add_nonneg (le_trans (mul_nonneg (pow_nonneg p0 _) WL0) hy1.1) WU0
    calc y2 ≤ (1 + 2 * u) ^ n2 * (y1 + WU) := hy2.2
      _ ≤ (1 + 2 * u) ^ n * (y1 + WU) := mul_le_mul_of_nonneg_right b2 z0
      _ ≤ (1 + 2 * u) ^ n * ((1 + 2 * u) ^ n * ((1 + 2 * u) ^ 2 * SL) + (1 + 2 * u) ^ n * ((1 + 2 * u) ^ 2 * SU)) :=
          mul_le_mul_of_nonneg_left (add_le_add x1 x2) (pow_nonneg q0 _)
      _ = _ := by ring

end Machin.Project
