import Verif.Project.RoundShare
import Verif.Prio.RoundDouble

/-! # C244: the distributional target in floating point -/

namespace Machin.Project

open Spec Machin.Prio Machin.Prio.Spec

variable {d f : ℚ → ℚ} {v u M : ℚ} {s : Support}

/-- The precisions of python and of tensors meet the assumptions. -/
theorem C244_precisions : Arith double single (1 / 2 ^ 53) (1 / 2 ^ 24) :=
  ⟨toNearest_rounding (by norm_num), toNearest_rounding (by norm_num), by norm_num, by norm_num, by norm_num⟩

/-- The whole property, what the comment in rainbow.py:256 asks of the margin `1e-6`: for every support whose atoms are at least two margins
apart, a value at or beyond an end of the support is placed strictly between two neighbouring atoms. -/
def C244_full : Prop :=
  ∀ (s : Support) (M : ℚ), Given double single s M → M ≤ 1000 → s.atoms ≤ 1000 → 2 * double eps * ((s.atoms : ℚ) - 1) ≤ s.vmax - s.vmin →
    ∀ x, x ≤ s.vmin ∨ s.vmax ≤ x → ∃ k, Between s (posF double single s x) k

/-- A uniform distribution on eight of the atoms. -/
def eighth (_ j : Nat) : ℚ := if j < 8 then 1 / 8 else 0

/-- The values of the project's own test (10 atoms from 0 to 40): a value of 40 falls on the last atom, both weights are 0 and nothing of the
distribution is left in the target. -/
theorem C244_violated_lost : Given double single ⟨10, 0, 40⟩ 40 ∧ posF double single ⟨10, 0, 40⟩ 40 = 9 ∧
    targetF double single ⟨10, 0, 40⟩ 1 (fun _ _ => 40) eighth = .ok (List.replicate 10 0) := by
  refine ⟨⟨by decide, by decide +kernel, by decide +kernel, by decide +kernel, by decide +kernel, by decide +kernel, by decide +kernel,
    by decide +kernel⟩, by decide +kernel, by decide +kernel⟩

/-- The usual support of 51 atoms from -10 to 10 as well. -/
theorem C244_violated_lost_usual : Given double single ⟨51, -10, 10⟩ 10 ∧
    targetF double single ⟨51, -10, 10⟩ 1 (fun _ _ => 10) eighth = .ok (List.replicate 51 0) := by
  refine ⟨⟨by decide, by decide +kernel, by decide +kernel, by decide +kernel, by decide +kernel, by decide +kernel, by decide +kernel,
    by decide +kernel⟩, by decide +kernel⟩

/-- 51 atoms from 0 to 53: the position exceeds the last atom, the index of the upper neighbour is out of range and `index_add_` raises. -/
theorem C244_violated_index : Given double single ⟨51, 0, 53⟩ 53 ∧ 50 < posF double single ⟨51, 0, 53⟩ 53 ∧
    targetF double single ⟨51, 0, 53⟩ 1 (fun _ _ => 53) eighth = .error .index := by
  refine ⟨⟨by decide, by decide +kernel, by decide +kernel, by decide +kernel, by decide +kernel, by decide +kernel, by decide +kernel,
    by decide +kernel⟩, by decide +kernel, by decide +kernel⟩

/-- If another row follows, mass leaks to its first atom instead. -/
theorem C244_violated_leak : ∃ t : List ℚ, targetF double single ⟨51, 0, 53⟩ 2 (fun i _ => if i = 0 then 53 else 10) (fun i j => if i = 0 then eighth i j else 0) = .ok t ∧
    (0 : ℚ) < t.getD 51 0 := by
  refine ⟨(targetF double single ⟨51, 0, 53⟩ 2 (fun i _ => if i = 0 then 53 else 10) (fun i j => if i = 0 then eighth i j else 0)).toOption.getD [], ?_, ?_⟩ <;>
    decide +kernel

theorem C244_violated : ¬ C244_full := by
  intro h
  obtain ⟨k, h1, h2, -⟩ := h ⟨10, 0, 40⟩ 40 C244_violated_lost.1 (by norm_num) (by decide) (by decide +kernel) 40 (Or.inr (le_refl _))
  rw [C244_violated_lost.2.1] at h1 h2
  have h1 : k < 9 := by exact_mod_cast h1
  have h2 : 9 < k + 1 := by exact_mod_cast h2
  omega

/-- Whatever the margin: no position is negative, and the index of the upper neighbour is at most one too large. -/
theorem C244_range_partial (ha : Arith d f v u) (hs : Given d f s M) (he : 2 * d eps ≤ s.vmax - s.vmin)
    (hn : (4 * u + 3 * v) * ((s.atoms : ℚ) - 1) ≤ 1) (x : ℚ) : 0 ≤ ⌊posF d f s x⌋ ∧ ⌈posF d f s x⌉ ≤ s.atoms := by
  have h := posF_le ha hs x he
  refine ⟨Int.floor_nonneg.2 h.1, Int.ceil_le.2 ?_⟩
  push_cast
  linarith [h.2]

/-- A margin above the rounding errors of the support: every position lies strictly between the first and the last atom, so that no index is out
of range. -/
theorem C244_inside_partial (ha : Arith d f v u) (hs : Given d f s M) (he : 2 * d eps ≤ s.vmax - s.vmin) (hg : (7 * u + 5 * v) * M < d eps) (x : ℚ) :
    0 < posF d f s x ∧ posF d f s x < (s.atoms : ℚ) - 1 := posF_inside ha hs x he hg

/-- A margin above the rounding errors of the support: values at or beyond an end are placed strictly between two neighbouring atoms. -/
theorem C244_ends_partial (ha : Arith d f v u) (hs : Given d f s M) (he : 2 * d eps * ((s.atoms : ℚ) - 1) ≤ s.vmax - s.vmin)
    (hg : (7 * u + 5 * v) * M < d eps) (x : ℚ) :
    (x ≤ s.vmin → Between s (posF d f s x) 0) ∧ (s.vmax ≤ x → Between s (posF d f s x) (s.atoms - 2)) := by
  have hn : (2 : ℚ) ≤ s.atoms := by exact_mod_cast hs.atoms
  have he0 : 0 ≤ d eps := fl_nonneg ha.py eps_pos.le
  have he2 : 2 * d eps ≤ s.vmax - s.vmin := by nlinarith
  have hi := posF_inside ha hs x he2 hg
  have hE := ends ha hs (by linarith)
  have hA := hs.atoms
  constructor
  · intro hx
    have h := posF_low ha hs x (le_trans hx hE.1.1) he hg
    refine ⟨by simpa using hi.1, by simpa using h, by omega⟩
  · intro hx
    have h := posF_high ha hs x (le_trans hE.2.2.1 hx) he hg
    refine ⟨?_, ?_, by omega⟩
    · rw [Nat.cast_sub hA]; exact h
    · rw [Nat.cast_sub hA]; push_cast; linarith [hi.2]

/-- In the precisions of the code this covers the supports within `[-2, 2]`, the default `[-1, 1]` of `generate_config` among them. -/
theorem C244_single_partial (hs : Given double single s 2) (he : 2 * double eps * ((s.atoms : ℚ) - 1) ≤ s.vmax - s.vmin) (x : ℚ) :
    (0 < posF double single s x ∧ posF double single s x < (s.atoms : ℚ) - 1) ∧
    (x ≤ s.vmin → Between s (posF double single s x) 0) ∧ (s.vmax ≤ x → Between s (posF double single s x) (s.atoms - 2)) := by
  have hg : (7 * (1 / 2 ^ 24) + 5 * (1 / 2 ^ 53)) * 2 < double eps := by decide +kernel
  have hn : (2 : ℚ) ≤ s.atoms := by exact_mod_cast hs.atoms
  have he0 : 0 ≤ double eps := fl_nonneg C244_precisions.py eps_pos.le
  exact ⟨C244_inside_partial C244_precisions hs (by nlinarith) hg x, C244_ends_partial C244_precisions hs he hg x⟩

/-- One column: on an atom both weights are 0, off the atoms they sum to the probability up to two roundings each. -/
theorem C244_column_partial (hr : Rounding f u) (h0 : 0 ≤ u) (h1 : u ≤ 1 / 2) (b p : ℚ) (hp : 0 ≤ p) :
    ((⌊b⌋ : ℚ) = b → lowerF f b p = 0 ∧ upperF f b p = 0) ∧
    ((⌊b⌋ : ℚ) ≠ b → (1 - u) ^ 2 * p ≤ lowerF f b p + upperF f b p ∧ lowerF f b p + upperF f b p ≤ (1 + 2 * u) ^ 2 * p) := by
  refine ⟨fun h => weights_on hr h, fun h => ?_⟩
  have hw := weights_bounds hr h0 h1 (b := b) hp
  have hc : (⌈b⌉ : ℚ) = ⌊b⌋ + 1 := by rw [ceil_off h]; push_cast; rfl
  rw [hc] at hw
  constructor <;> nlinarith [hw.1.1, hw.1.2, hw.2.1, hw.2.2]

/-- All entries of the target, if the margin is above the rounding errors: no index is out of range, and entry `(i, k)` is the sum of the exact shares at the
rounded positions of row `i`, up to a factor for the roundings. -/
theorem C244_entries_partial (ha : Arith d f v u) (hs : Given d f s M) (he : 2 * d eps ≤ s.vmax - s.vmin) (hg : (7 * u + 5 * v) * M < d eps)
    (batch : Nat) (T p : Nat → Nat → ℚ) (hp : ∀ i j, 0 ≤ p i j) :
    ∃ t, targetF d f s batch T p = .ok t ∧ t.length = batch * s.atoms ∧ ∀ i < batch, ∀ k < s.atoms, ∃ y, t[i * s.atoms + k]? = some y ∧
      (1 - u) ^ (2 * s.atoms + 2) * ∑ j ∈ Finset.range s.atoms, share (posF d f s (T i j)) (p i j) k ≤ y ∧
      y ≤ (1 + 2 * u) ^ (2 * s.atoms + 2) * ∑ j ∈ Finset.range s.atoms, share (posF d f s (T i j)) (p i j) k := by
  have hA : 0 < s.atoms := by have := hs.atoms; omega
  have hu0 : 0 ≤ u := le_trans ha.pos ha.le
  have hu1 : u ≤ 1 / 2 := le_trans ha.small (by norm_num)
  have hin : ∀ x, (⌊posF d f s x⌋).toNat < s.atoms ∧ ((⌊posF d f s x⌋).toNat : Int) = ⌊posF d f s x⌋ ∧
      (⌈posF d f s x⌉).toNat < s.atoms ∧ ((⌈posF d f s x⌉).toNat : Int) = ⌈posF d f s x⌉ := by
    intro x
    have hb := posF_inside ha hs x he hg
    have h0 : 0 ≤ ⌊posF d f s x⌋ := Int.floor_nonneg.2 hb.1.le
    have h1 : ⌈posF d f s x⌉ ≤ (s.atoms : Int) - 1 := Int.ceil_le.2 (by push_cast; linarith [hb.2])
    have h2 : ⌊posF d f s x⌋ ≤ ⌈posF d f s x⌉ := Int.floor_le_ceil _
    omega
  have hall : ∀ (g : Nat → Nat → Nat), (∀ i j, g i j < s.atoms) → ∀ l : List ℚ, l.length = batch * s.atoms →
      (flat batch s.atoms (fun i j => g i j + i * s.atoms)).all (· < l.length) = true := by
    intro g hgl l hl
    rw [List.all_eq_true]
    intro m hm
    unfold flat at hm
    obtain ⟨a, ha', rfl⟩ := List.mem_map.1 hm
    rw [decide_eq_true_iff, hl]
    have h1 : a / s.atoms < batch := by
      rw [Nat.div_lt_iff_lt_mul hA]
      exact List.mem_range.1 ha'
    have h2 := hgl (a / s.atoms) (a % s.atoms)
    have h3 : (a / s.atoms + 1) * s.atoms ≤ batch * s.atoms := Nat.mul_le_mul_right _ h1
    rw [Nat.succ_mul] at h3
    show g (a / s.atoms) (a % s.atoms) + a / s.atoms * s.atoms < batch * s.atoms
    omega
  unfold targetF indexAddF
  simp only
  rw [if_pos (hall (fun i j => (⌊posF d f s (T i j)⌋).toNat) (fun i j => (hin _).1) _ List.length_replicate)]
  simp only [bind, Except.bind]
  rw [if_pos (hall (fun i j => (⌈posF d f s (T i j)⌉).toNat) (fun i j => (hin _).2.2.1) _ (by rw [foldF_length, List.length_replicate]))]
  refine ⟨_, rfl, by rw [foldF_length, foldF_length, List.length_replicate], ?_⟩
  intro i hi k hk
  have hm : i * s.atoms + k < batch * s.atoms := by
    have : (i + 1) * s.atoms ≤ batch * s.atoms := Nat.mul_le_mul_right _ hi
    rw [Nat.succ_mul] at this
    omega
  rw [flat_zip, flat_zip]
  have g0 : (List.replicate (batch * s.atoms) (0 : ℚ))[i * s.atoms + k]? = some 0 := by rw [List.getElem?_replicate, if_pos hm]
  have g1 := foldF_get f (flat batch s.atoms (fun i j => ((⌊posF d f s (T i j)⌋).toNat + i * s.atoms, lowerF f (posF d f s (T i j)) (p i j)))) _ _ _ g0
  have g2 := foldF_get f (flat batch s.atoms (fun i j => ((⌈posF d f s (T i j)⌉).toNat + i * s.atoms, upperF f (posF d f s (T i j)) (p i j)))) _ _ _ g1
  have nn : ∀ (g : Nat → Nat → Nat) (w : Nat → Nat → ℚ), (∀ i j, 0 ≤ w i j) → ∀ iw ∈ flat batch s.atoms (fun i j => (g i j + i * s.atoms, w i j)), 0 ≤ iw.2 := by
    intro g w hw iw hiw
    unfold flat at hiw
    obtain ⟨a, -, rfl⟩ := List.mem_map.1 hiw
    exact hw _ _
  have cnt : ∀ (g : Nat → Nat → Nat) (w : Nat → Nat → ℚ), (∀ i j, g i j < s.atoms) →
      (flat batch s.atoms (fun i j => (g i j + i * s.atoms, w i j))).countP (fun iw => iw.1 = i * s.atoms + k) ≤ s.atoms := by
    intro g w hgl
    have h1 := row_sum batch s.atoms hA g (fun _ _ => 1) (fun i j _ _ => hgl i j) i k hi hk
    have h2 : (((flat batch s.atoms (fun i j => (g i j + i * s.atoms, w i j))).countP (fun iw => iw.1 = i * s.atoms + k) : Nat) : ℚ) =
        ((flat batch s.atoms (fun i j => (g i j + i * s.atoms, (1 : ℚ)))).map (fun iw => if iw.1 = i * s.atoms + k then iw.2 else 0)).sum := by
      unfold flat
      generalize List.range (batch * s.atoms) = l
      induction l with
      | nil => rfl
      | cons a l ih =>
        simp only [List.map_cons, List.countP_cons, List.sum_cons]
        by_cases hd : g (a / s.atoms) (a % s.atoms) + a / s.atoms * s.atoms = i * s.atoms + k
        · simp only [hd, decide_true, if_true]
          push_cast
          rw [ih]
          ring
        · simp only [hd, decide_false, if_false, Bool.false_eq_true, Nat.add_zero]
          rw [ih]
          ring
    have h3 : (∑ j ∈ Finset.range s.atoms, if g i j = k then (1 : ℚ) else 0) ≤ s.atoms := by
      calc _ ≤ ∑ j ∈ Finset.range s.atoms, (1 : ℚ) := Finset.sum_le_sum fun j _ => by split <;> norm_num
        _ = s.atoms := by simp
    rw [h1] at h2
    rw [← h2] at h3
    exact_mod_cast h3
  have nL : ∀ i j, 0 ≤ lowerF f (posF d f s (T i j)) (p i j) := fun i j => (weights_nonneg ha.el (hp i j)).1
  have nU : ∀ i j, 0 ≤ upperF f (posF d f s (T i j)) (p i j) := fun i j => (weights_nonneg ha.el (hp i j)).2
  have s1 := sums_bounds ha.el hu0 hu1 (i * s.atoms + k) _ (nn (fun i j => (⌊posF d f s (T i j)⌋).toNat) _ nL) 0 (le_refl 0)
  have c1 := cnt (fun i j => (⌊posF d f s (T i j)⌋).toNat) (fun i j => lowerF f (posF d f s (T i j)) (p i j)) (fun i j => (hin _).1)
  have s2 := sums_bounds ha.el hu0 hu1 (i * s.atoms + k) _ (nn (fun i j => (⌈posF d f s (T i j)⌉).toNat) _ nU) _ s1.1
  have c2 := cnt (fun i j => (⌈posF d f s (T i j)⌉).toNat) (fun i j => upperF f (posF d f s (T i j)) (p i j)) (fun i j => (hin _).2.2.1)
  refine ⟨_, g2, ?_⟩
  rw [row_sum batch s.atoms hA _ _ (fun i j _ _ => (hin _).1) i k hi hk, zero_add] at s1
  rw [row_sum batch s.atoms hA _ _ (fun i j _ _ => (hin _).2.2.1) i k hi hk] at s2
  obtain ⟨-, s1a, s1b⟩ := s1
  obtain ⟨-, s2a, s2b⟩ := s2
  generalize (List.foldl (fun (x : ℚ) (iw : Nat × ℚ) => if iw.1 = i * s.atoms + k then f (x + iw.2) else x) 0 _) = y1 at *
  generalize (List.foldl (fun (x : ℚ) (iw : Nat × ℚ) => if iw.1 = i * s.atoms + k then f (x + iw.2) else x) y1 _) = y2 at *
  generalize List.countP _ _ = n1 at *
  generalize List.countP _ _ = n2 at *
  -- exact shares of the two neighbours
  have hsum : ∑ j ∈ Finset.range s.atoms, share (posF d f s (T i j)) (p i j) k =
      (∑ j ∈ Finset.range s.atoms, if (⌊posF d f s (T i j)⌋).toNat = k then ((⌈posF d f s (T i j)⌉ : ℚ) - posF d f s (T i j)) * p i j else 0) +
      ∑ j ∈ Finset.range s.atoms, if (⌈posF d f s (T i j)⌉).toNat = k then (posF d f s (T i j) - (⌊posF d f s (T i j)⌋ : ℚ)) * p i j else 0 := by
    rw [← Finset.sum_add_distrib]
    apply Finset.sum_congr rfl
    intro j _
    unfold share
    have hx := hin (T i j)
    have e1 : ((⌊posF d f s (T i j)⌋).toNat = k) ↔ (⌊posF d f s (T i j)⌋ : Int) = k := by omega
    have e2 : ((⌈posF d f s (T i j)⌉).toNat = k) ↔ (⌈posF d f s (T i j)⌉ : Int) = k := by omega
    simp only [e1, e2]
  have hL : (1 - u) ^ 2 * (∑ j ∈ Finset.range s.atoms, if (⌊posF d f s (T i j)⌋).toNat = k then ((⌈posF d f s (T i j)⌉ : ℚ) - posF d f s (T i j)) * p i j else 0) ≤
        (∑ j ∈ Finset.range s.atoms, if (⌊posF d f s (T i j)⌋).toNat = k then lowerF f (posF d f s (T i j)) (p i j) else 0) ∧
      (∑ j ∈ Finset.range s.atoms, if (⌊posF d f s (T i j)⌋).toNat = k then lowerF f (posF d f s (T i j)) (p i j) else 0) ≤
        (1 + 2 * u) ^ 2 * (∑ j ∈ Finset.range s.atoms, if (⌊posF d f s (T i j)⌋).toNat = k then ((⌈posF d f s (T i j)⌉ : ℚ) - posF d f s (T i j)) * p i j else 0) := by
    constructor <;> rw [Finset.mul_sum] <;> apply Finset.sum_le_sum <;> intro j _ <;> split
    · exact (weights_bounds ha.el hu0 hu1 (hp i j)).1.1
    · simp
    · exact (weights_bounds ha.el hu0 hu1 (hp i j)).1.2
    · simp
  have hU : (1 - u) ^ 2 * (∑ j ∈ Finset.range s.atoms, if (⌈posF d f s (T i j)⌉).toNat = k then (posF d f s (T i j) - (⌊posF d f s (T i j)⌋ : ℚ)) * p i j else 0) ≤
        (∑ j ∈ Finset.range s.atoms, if (⌈posF d f s (T i j)⌉).toNat = k then upperF f (posF d f s (T i j)) (p i j) else 0) ∧
      (∑ j ∈ Finset.range s.atoms, if (⌈posF d f s (T i j)⌉).toNat = k then upperF f (posF d f s (T i j)) (p i j) else 0) ≤
        (1 + 2 * u) ^ 2 * (∑ j ∈ Finset.range s.atoms, if (⌈posF d f s (T i j)⌉).toNat = k then (posF d f s (T i j) - (⌊posF d f s (T i j)⌋ : ℚ)) * p i j else 0) := by
    constructor <;> rw [Finset.mul_sum] <;> apply Finset.sum_le_sum <;> intro j _ <;> split
    · exact (weights_bounds ha.el hu0 hu1 (hp i j)).2.1
    · simp
    · exact (weights_bounds ha.el hu0 hu1 (hp i j)).2.2
    · simp
  have hL0 : 0 ≤ ∑ j ∈ Finset.range s.atoms, if (⌊posF d f s (T i j)⌋).toNat = k then ((⌈posF d f s (T i j)⌉ : ℚ) - posF d f s (T i j)) * p i j else 0 :=
    Finset.sum_nonneg fun j _ => by
      split
      · exact mul_nonneg (sub_nonneg.2 (Int.le_ceil _)) (hp i j)
      · exact le_refl 0
  have hU0 : 0 ≤ ∑ j ∈ Finset.range s.atoms, if (⌈posF d f s (T i j)⌉).toNat = k then (posF d f s (T i j) - (⌊posF d f s (T i j)⌋ : ℚ)) * p i j else 0 :=
    Finset.sum_nonneg fun j _ => by
      split
      · exact mul_nonneg (sub_nonneg.2 (Int.floor_le _)) (hp i j)
      · exact le_refl 0
  rw [hsum]
  generalize (∑ j ∈ Finset.range s.atoms, if (⌊posF d f s (T i j)⌋).toNat = k then ((⌈posF d f s (T i j)⌉ : ℚ) - posF d f s (T i j)) * p i j else 0) = SL at *
  generalize (∑ j ∈ Finset.range s.atoms, if (⌊posF d f s (T i j)⌋).toNat = k then lowerF f (posF d f s (T i j)) (p i j) else 0) = WL at *
  generalize (∑ j ∈ Finset.range s.atoms, if (⌈posF d f s (T i j)⌉).toNat = k then (posF d f s (T i j) - (⌊posF d f s (T i j)⌋ : ℚ)) * p i j else 0) = SU at *
  generalize (∑ j ∈ Finset.range s.atoms, if (⌈posF d f s (T i j)⌉).toNat = k then upperF f (posF d f s (T i j)) (p i j) else 0) = WU at *
  exact factors hu0 hu1 c1 c2 hL0 hU0 hL hU ⟨s1a, s1b⟩ ⟨s2a, s2b⟩

/-- The mass of a row of the target, up to rounding: what is lost is the mass whose rounded position is an atom. -/
theorem C244_mass_partial (ha : Arith d f v u) (hs : Given d f s M) (he : 2 * d eps ≤ s.vmax - s.vmin) (hg : (7 * u + 5 * v) * M < d eps)
    (batch : Nat) (T p : Nat → Nat → ℚ) (hp : ∀ i j, 0 ≤ p i j) :
    ∃ t, targetF d f s batch T p = .ok t ∧ ∀ i < batch,
      (1 - u) ^ (2 * s.atoms + 2) * kept (fun j => posF d f s (T i j)) (p i) s.atoms ≤ rowSum t s.atoms i ∧
      rowSum t s.atoms i ≤ (1 + 2 * u) ^ (2 * s.atoms + 2) * kept (fun j => posF d f s (T i j)) (p i) s.atoms := by
  obtain ⟨t, ht, -, hy⟩ := C244_entries_partial ha hs he hg batch T p hp
  refine ⟨t, ht, fun i hi => ?_⟩
  have hk : kept (fun j => posF d f s (T i j)) (p i) s.atoms = ∑ k ∈ Finset.range s.atoms, ∑ j ∈ Finset.range s.atoms, share (posF d f s (T i j)) (p i j) k := by
    unfold kept
    rw [Finset.sum_comm]
    apply Finset.sum_congr rfl
    intro j _
    exact (share_sum (posF_inside ha hs (T i j) he hg) (p i j)).symm
  unfold rowSum
  rw [hk, Finset.mul_sum, Finset.mul_sum]
  constructor <;> apply Finset.sum_le_sum <;> intro k hkm <;> obtain ⟨y, e, h1, h2⟩ := hy i hi k (Finset.mem_range.1 hkm) <;> rw [e] <;> simpa using by assumption

/-- In the precisions of the code, on supports within `[-2, 2]` of at most 1000 atoms: a row keeps its mass up to one thousandth, except for the mass that
falls on atoms. -/
theorem C244_mass_single_partial (hs : Given double single s 2) (he : 2 * double eps ≤ s.vmax - s.vmin) (hA : s.atoms ≤ 1000)
    (batch : Nat) (T p : Nat → Nat → ℚ) (hp : ∀ i j, 0 ≤ p i j) :
    ∃ t, targetF double single s batch T p = .ok t ∧ ∀ i < batch,
      |rowSum t s.atoms i - kept (fun j => posF double single s (T i j)) (p i) s.atoms| ≤ 1 / 1000 * kept (fun j => posF double single s (T i j)) (p i) s.atoms := by
  have hg : (7 * (1 / 2 ^ 24) + 5 * (1 / 2 ^ 53)) * 2 < double eps := by decide +kernel
  obtain ⟨t, ht, h⟩ := C244_mass_partial C244_precisions hs he hg batch T p hp
  refine ⟨t, ht, fun i hi => ?_⟩
  obtain ⟨h1, h2⟩ := h i hi
  have hk : 0 ≤ kept (fun j => posF double single s (T i j)) (p i) s.atoms := by
    unfold kept
    apply Finset.sum_nonneg
    intro j _
    split
    · exact le_refl 0
    · exact hp i j
  have hn : ((2 * s.atoms + 2 : Nat) : ℚ) ≤ 2002 := by exact_mod_cast (by omega : 2 * s.atoms + 2 ≤ 2002)
  have b1 : (1 : ℚ) - 1 / 1000 ≤ (1 - 1 / 2 ^ 24) ^ (2 * s.atoms + 2) := by
    have := pow_lower (x := 1 / 2 ^ 24) (by norm_num) (by norm_num) (2 * s.atoms + 2)
    have : ((2 * s.atoms + 2 : Nat) : ℚ) * (1 / 2 ^ 24) ≤ 2002 * (1 / 2 ^ 24) := mul_le_mul_of_nonneg_right hn (by norm_num)
    have : (2002 : ℚ) * (1 / 2 ^ 24) ≤ 1 / 1000 := by norm_num
    linarith
  have b2 : ((1 : ℚ) + 2 * (1 / 2 ^ 24)) ^ (2 * s.atoms + 2) ≤ 1 + 1 / 1000 := by
    have h3 := pow_upper (x := 2 * (1 / 2 ^ 24)) (by norm_num) (by norm_num) (2 * s.atoms + 2)
    have : ((2 * s.atoms + 2 : Nat) : ℚ) * (2 * (1 / 2 ^ 24)) ≤ 2002 * (2 * (1 / 2 ^ 24)) := mul_le_mul_of_nonneg_right hn (by norm_num)
    have h4 : (2002 : ℚ) * (2 * (1 / 2 ^ 24)) ≤ 1 / 2000 := by norm_num
    have h5 : (0 : ℚ) ≤ (1 + 2 * (1 / 2 ^ 24)) ^ (2 * s.atoms + 2) := pow_nonneg (by norm_num) _
    generalize ((1 : ℚ) + 2 * (1 / 2 ^ 24)) ^ (2 * s.atoms + 2) = y at *
    nlinarith
  have m1 := mul_le_mul_of_nonneg_right b1 hk
  have m2 := mul_le_mul_of_nonneg_right b2 hk
  rw [abs_le]
  constructor <;> linarith

/-- The default support with 51 atoms meets the hypotheses; a reward at the end of the support keeps the mass. -/
example : Given double single ⟨51, -1, 1⟩ 2 ∧ 2 * double eps * (((51 : Nat) : ℚ) - 1) ≤ 1 - -1 ∧ (51 : Nat) ≤ 1000 ∧
    kept (fun _ => posF double single ⟨51, -1, 1⟩ 1) (eighth 0) 51 = 1 := by
  refine ⟨⟨by decide, by decide +kernel, by decide +kernel, by decide +kernel, by decide +kernel, by decide +kernel, by decide +kernel,
    by decide +kernel⟩, by decide +kernel, by decide, by decide +kernel⟩

end Machin.Project
