import Verif.Ars.PropsStep
import Mathlib.Algebra.BigOperators.Ring.Finset
import Mathlib.Algebra.BigOperators.Field
import Mathlib.Tactic.LinearCombination
import Mathlib.Tactic.NormNum

/-! # C212: the update of ARS climbs -/

namespace Machin.Ars

open Finset

variable {K : Type}

/-- Entry `j` of parameter `k`. -/
def entry [Zero K] (m : Params K) (k j : Nat) : K := ((m[k]?).getD ("", [])).2.getD j 0

/-- The linear function with slope `g`, for networks of the shape of `θ`. -/
def linear [Field K] (θ : Params K) (g : Nat → Nat → K) (m : Params K) : K :=
  ∑ k ∈ range θ.length, ∑ j ∈ range (((θ[k]?).getD ("", [])).2.length), g k j * entry m k j

/-- The slope of `g` in the direction of an entry. -/
def slope [Field K] (θ : Params K) (g : Nat → Nat → K) (e : Entry K) : K := linear θ g e.pos - linear θ g θ

section

variable [Field K]

theorem sum_avg {A B : Type} (s : Finset B) (l : List A) (c : A → K) (d : B → A → K) :
    ∑ b ∈ s, avg l (fun e => c e * d b e) = avg l fun e => c e * ∑ b ∈ s, d b e := by
  unfold avg
  rw [← Finset.sum_div]
  congr 1
  induction l with
  | nil => simp
  | cons a l ih =>
    simp only [List.map_cons, List.sum_cons]
    rw [Finset.sum_add_distrib, ih, Finset.mul_sum]

theorem avg_mul {A : Type} (l : List A) (x : K) (f : A → K) : x * avg l f = avg l fun e => x * f e := by
  unfold avg
  rw [← mul_div_assoc]
  congr 1
  induction l with
  | nil => simp
  | cons a l ih => simp only [List.map_cons, List.sum_cons, mul_add, ih]

theorem slope_eq (θ : Params K) (g : Nat → Nat → K) (e : Entry K) :
    slope θ g e = ∑ k ∈ range θ.length, ∑ j ∈ range (((θ[k]?).getD ("", [])).2.length), g k j * delta θ k j e := by
  unfold slope linear
  rw [← Finset.sum_sub_distrib]
  refine Finset.sum_congr rfl fun k _ => ?_
  rw [← Finset.sum_sub_distrib]
  refine Finset.sum_congr rfl fun j _ => ?_
  unfold delta entry
  rw [mul_sub]

end

section

variable [Field K] [LinearOrder K] [IsStrictOrderedRing K]

/-- C212: along every linear function, the update moves the actor by the learning rate times the average, over the used rollouts, of the difference of their
rewards times the slope in their direction. -/
theorem C212_gain (std : List K → K) (close : K → Bool) (lr : K) (noise : List K) (n u : Nat) (θ : Params K) (members : List (List (Entry K)))
    (hn : members.flatten.length = n) (hu : 0 < u) (hun : u ≤ n) (hr : ∀ e ∈ members.flatten, e.posR ≠ [] ∧ e.negR ≠ [])
    (hp : ∀ e ∈ members.flatten, Perturbed noise θ e) (g : Nat → Nat → K) :
    ∃ θ', managerUpdate std close lr noise n u θ members = .ok θ' ∧ best u members.flatten ≠ [] ∧
      linear θ g θ' = linear θ g θ + lr * avg (best u members.flatten) fun e =>
        (avg e.posR id - avg e.negR id) / divisor std close (best u members.flatten) * slope θ g e := by
  obtain ⟨θ', h1, h2, h3, h4⟩ := C146_step std close lr noise n u θ members hn hu hun hr hp
  refine ⟨θ', h1, h3, ?_⟩
  have hent : ∀ k ∈ range θ.length, ∀ j ∈ range (((θ[k]?).getD ("", [])).2.length), g k j * entry θ' k j = g k j * entry θ k j +
      lr * avg (best u members.flatten) (fun e =>
        ((avg e.posR id - avg e.negR id) / divisor std close (best u members.flatten)) * (g k j * delta θ k j e)) := by
    intro k hk j hj
    obtain ⟨p, hk'⟩ : ∃ p, θ[k]? = some p := ⟨_, List.getElem?_eq_getElem (mem_range.1 hk)⟩
    obtain ⟨v', e1, e2, e3⟩ := h4 k p.1 p.2 hk'
    rw [hk'] at hj
    obtain ⟨x, hj'⟩ : ∃ x, p.2[j]? = some x := ⟨_, List.getElem?_eq_getElem (by simpa using hj)⟩
    have e4 := e3 j _ hj'
    have a1 := show entry θ' k j = v'.getD j 0 by unfold entry; rw [e1, Option.getD_some]
    rw [List.getD_eq_getElem?_getD, e4, Option.getD_some] at a1
    have a2 : entry θ k j = x := by
      unfold entry
      rw [hk', Option.getD_some, List.getD_eq_getElem?_getD, hj', Option.getD_some]
    rw [a1, a2, mul_add]
    congr 1
    rw [← mul_assoc, mul_comm (g k j) lr, mul_assoc, avg_mul]
    congr 2
    funext e
    ring
  unfold linear at *
  rw [Finset.sum_congr rfl fun k hk => Finset.sum_congr rfl (hent k hk)]
  simp only [Finset.sum_add_distrib]
  congr 1
  have : ∀ k ∈ range θ.length, ∑ j ∈ range (((θ[k]?).getD ("", [])).2.length), lr * avg (best u members.flatten) (fun e =>
        ((avg e.posR id - avg e.negR id) / divisor std close (best u members.flatten)) * (g k j * delta θ k j e)) =
      lr * avg (best u members.flatten) (fun e => ((avg e.posR id - avg e.negR id) / divisor std close (best u members.flatten)) *
        ∑ j ∈ range (((θ[k]?).getD ("", [])).2.length), g k j * delta θ k j e) := by
    intro k _
    rw [← Finset.mul_sum, sum_avg]
  rw [Finset.sum_congr rfl this, ← Finset.mul_sum, sum_avg]
  congr 2
  funext e
  rw [slope_eq]

theorem avg_nonneg {A : Type} (l : List A) (f : A → K) (h : ∀ e ∈ l, 0 ≤ f e) : 0 ≤ avg l f :=
  div_nonneg (List.sum_nonneg (by simpa using h)) (Nat.cast_nonneg _)

theorem avg_pos {A : Type} (l : List A) (f : A → K) (h : ∀ e ∈ l, 0 ≤ f e) (h' : ∃ e ∈ l, 0 < f e) : 0 < avg l f := by
  obtain ⟨e, he, hpos⟩ := h'
  refine div_pos ?_ (Nat.cast_pos.2 (List.length_pos_of_mem he))
  have h1 : f e ≤ (l.map f).sum := List.single_le_sum (by simpa using h) _ (List.mem_map_of_mem he)
  exact lt_of_lt_of_le hpos h1

/-- C212: if in every used rollout the better one of the two networks is on the side to which `g` ascends, the update does not descend along `g`. -/
theorem C212_ascent (std : List K → K) (close : K → Bool) (lr : K) (noise : List K) (n u : Nat) (θ : Params K) (members : List (List (Entry K)))
    (hn : members.flatten.length = n) (hu : 0 < u) (hun : u ≤ n) (hr : ∀ e ∈ members.flatten, e.posR ≠ [] ∧ e.negR ≠ [])
    (hp : ∀ e ∈ members.flatten, Perturbed noise θ e) (g : Nat → Nat → K) (hlr : 0 ≤ lr) (hd : 0 < divisor std close (best u members.flatten))
    (hs : ∀ e ∈ members.flatten, 0 ≤ (avg e.posR id - avg e.negR id) * slope θ g e) :
    ∃ θ', managerUpdate std close lr noise n u θ members = .ok θ' ∧ linear θ g θ ≤ linear θ g θ' := by
  obtain ⟨θ', h1, h2, h3⟩ := C212_gain std close lr noise n u θ members hn hu hun hr hp g
  refine ⟨θ', h1, ?_⟩
  rw [h3, le_add_iff_nonneg_right]
  refine mul_nonneg hlr (avg_nonneg _ _ fun e he => ?_)
  rw [div_mul_eq_mul_div]
  exact div_nonneg (hs e (List.mem_filter.1 he).1) hd.le

/-- The two networks of an entry lie on opposite sides of the actor. -/
def Opposite (θ : Params K) (e : Entry K) : Prop :=
  ∀ k, k < θ.length → ∀ j, j < (((θ[k]?).getD ("", [])).2.length) → entry e.pos k j + entry e.neg k j = 2 * entry θ k j

/-- C212: entries made by `_generate_parameter` are of this kind, whatever rewards they get. -/
theorem C212_opposite (noise : List K) (θ : Params K) (draw : Nat → String → Nat → Nat) (hdraw : ∀ r name n, 0 < n → draw r name n < n)
    (rollouts : List Nat) (w : List (Entry K)) (hw : generate noise θ draw rollouts = .ok w) (e : Entry K) (he : e ∈ w) (ps ns : List K) :
    Opposite θ { e with posR := ps, negR := ns } := by
  intro k hk j hj
  have hk' : θ[k]? = some (θ[k]) := List.getElem?_eq_getElem _
  obtain ⟨_, _, _, h⟩ := ((C144_generated noise θ draw hdraw rollouts).2 w hw).2 e he
  obtain ⟨i, p, q, _, h2, h3, h4, h5, h6, h7⟩ := h k θ[k].1 θ[k].2 hk'
  rw [hk', Option.getD_some] at hj
  have hx : θ[k].2[j]? = some (θ[k].2[j]) := List.getElem?_eq_getElem _
  have hδ : noise[i + j]? = some (noise[i + j]'(by omega)) := List.getElem?_eq_getElem _
  obtain ⟨a, b⟩ := h7 j _ _ hx hδ
  unfold entry
  simp only [h2, h3, hk', Option.getD_some, List.getD_eq_getElem?_getD, a, b, hx]
  ring

/-- C212: if the reward is a linear function of the network, the update never lowers it: it rises by the learning rate times twice the average of the squared slopes in
the directions of the used rollouts, in units of the deviation; strictly if one of them is not level. -/
theorem C212_linear (std : List K → K) (close : K → Bool) (lr : K) (noise : List K) (n u : Nat) (θ : Params K) (members : List (List (Entry K)))
    (hn : members.flatten.length = n) (hu : 0 < u) (hun : u ≤ n) (hr : ∀ e ∈ members.flatten, e.posR ≠ [] ∧ e.negR ≠ [])
    (hp : ∀ e ∈ members.flatten, Perturbed noise θ e ∧ Opposite θ e) (g : Nat → Nat → K) (c : K) (hlr : 0 ≤ lr)
    (hd : 0 < divisor std close (best u members.flatten))
    (hlin : ∀ e ∈ members.flatten, avg e.posR id = linear θ g e.pos + c ∧ avg e.negR id = linear θ g e.neg + c) :
    ∃ θ', managerUpdate std close lr noise n u θ members = .ok θ' ∧
      linear θ g θ' = linear θ g θ + lr * avg (best u members.flatten) (fun e => 2 * slope θ g e ^ 2 / divisor std close (best u members.flatten)) ∧
      linear θ g θ ≤ linear θ g θ' ∧
      (0 < lr → (∃ e ∈ best u members.flatten, slope θ g e ≠ 0) → linear θ g θ < linear θ g θ') := by
  obtain ⟨θ', h1, h2, h3⟩ := C212_gain std close lr noise n u θ members hn hu hun hr (fun e he => (hp e he).1) g
  have hopp : ∀ e ∈ members.flatten, linear θ g e.pos + linear θ g e.neg = 2 * linear θ g θ := by
    intro e he
    unfold linear
    rw [← Finset.sum_add_distrib, Finset.mul_sum]
    refine Finset.sum_congr rfl fun k hk => ?_
    rw [← Finset.sum_add_distrib, Finset.mul_sum]
    refine Finset.sum_congr rfl fun j hj => ?_
    rw [← mul_add, (hp e he).2 k (mem_range.1 hk) j (mem_range.1 hj)]
    ring
  have hav : avg (best u members.flatten) (fun e => (avg e.posR id - avg e.negR id) / divisor std close (best u members.flatten) * slope θ g e) =
      avg (best u members.flatten) (fun e => 2 * slope θ g e ^ 2 / divisor std close (best u members.flatten)) := by
    unfold avg
    congr 2
    refine List.map_congr_left fun e he => ?_
    have he' := (List.mem_filter.1 he).1
    obtain ⟨a, b⟩ := hlin e he'
    have e1 := hopp e he'
    have e2 : avg e.posR id - avg e.negR id = 2 * slope θ g e := by
      rw [a, b]
      unfold slope
      linear_combination -e1
    unfold avg at e2
    rw [e2]
    ring
  rw [hav] at h3
  have hnn : ∀ e ∈ best u members.flatten, 0 ≤ 2 * slope θ g e ^ 2 / divisor std close (best u members.flatten) :=
    fun e _ => div_nonneg (mul_nonneg zero_le_two (sq_nonneg _)) hd.le
  refine ⟨θ', h1, h3, ?_, ?_⟩
  · rw [h3, le_add_iff_nonneg_right]
    exact mul_nonneg hlr (avg_nonneg _ _ hnn)
  · rintro hlr' ⟨e, he, hne⟩
    rw [h3, lt_add_iff_pos_right]
    exact mul_pos hlr' (avg_pos _ _ hnn ⟨e, he, div_pos (mul_pos zero_lt_two (lt_of_le_of_ne (sq_nonneg _) (Ne.symm (pow_ne_zero 2 hne)))) hd⟩)

end

/-- C212: the divisor is positive with `np.std` and `np.isclose`. -/
theorem C212_divisor (B : List (Entry ℝ)) : 0 < divisor npStd npClose B := by
  unfold divisor
  simp only
  split
  · exact one_pos
  · next h =>
    unfold npClose at h
    rw [decide_eq_true_eq, not_le] at h
    have h0 : 0 ≤ npStd ((B.map fun e => avg e.posR id) ++ B.map fun e => avg e.negR id) := Real.sqrt_nonneg _
    rw [abs_of_nonneg h0] at h
    exact lt_trans (by norm_num) h

/-- One parameter with two entries, one rollout with noise `(1, -1)`, the reward `3 x`: the update goes up. -/
example : let e : Entry ℚ := ⟨0, [("w", 0)], [("w", [3, 4])], [("w", [1, 6])], [9], [3]⟩
    Perturbed [1, -1] [("w", [2, 5])] e ∧ Opposite [("w", [2, 5])] e ∧ slope [("w", [2, 5])] (fun _ j => if j = 0 then 3 else 0) e = 3 ∧
    managerUpdate (fun _ => 1) (fun _ => false) 1 [1, -1] 1 1 [("w", [2, 5])] [[e]] = .ok [("w", [8, -1])] := by
  refine ⟨?_, ?_, by decide +kernel, by decide +kernel⟩
  · intro k name v hk
    cases k with
    | succ k => simp at hk
    | zero =>
      simp at hk
      obtain ⟨rfl, rfl⟩ := hk
      refine ⟨0, [3, 4], by decide, rfl, by decide, rfl, ?_⟩
      intro j x δ hx hδ
      match j with
      | 0 => simp at hx hδ; subst hx hδ; norm_num
      | 1 => simp at hx hδ; subst hx hδ; norm_num
      | j + 2 => simp at hx
  · intro k hk j hj
    have : k = 0 := by simpa using hk
    subst this
    have : j < 2 := by simpa using hj
    match j with
    | 0 => norm_num [entry]
    | 1 => norm_num [entry]
    | j + 2 => omega

end Machin.Ars
