import Verif.Prio.Model
import Mathlib.Data.Nat.Bitwise
import Mathlib.Algebra.BigOperators.Intervals
import Mathlib.Algebra.Order.BigOperators.Group.Finset
import Mathlib.Tactic.Ring
import Mathlib.Tactic.Linarith

/-! # Helper lemmas for the priority tree -/

namespace Machin.Prio

open Replay

/-! ### Addresses -/

@[simp] theorem offset_zero (d : Nat) : offset d 0 = 0 := rfl

theorem offset_succ (d i : Nat) : offset d (i + 1) = offset d i + levelSize d i := by
  simp [offset, List.range_succ]

theorem levelSize_pos (d i : Nat) : 0 < levelSize d i := Nat.pow_pos (by decide)

theorem levelSize_succ {d i : Nat} (h : i + 1 < d) : levelSize d i = 2 * levelSize d (i + 1) := by
  unfold levelSize
  have : d - 1 - i = (d - 1 - (i + 1)) + 1 := by omega
  rw [this, pow_succ]; ring

theorem offset_add {d i : Nat} (h : i ≤ d) : offset d i + 2 ^ (d - i) = 2 ^ d := by
  induction i with
  | zero => simp
  | succ i ih =>
    have h1 := ih (by omega)
    have h2 : 2 ^ (d - i) = 2 ^ (d - (i + 1)) + 2 ^ (d - (i + 1)) := by
      have : d - i = (d - (i + 1)) + 1 := by omega
      rw [this, pow_succ]; ring
    have h3 : levelSize d i = 2 ^ (d - (i + 1)) := by
      unfold levelSize; congr 1; omega
    rw [offset_succ]; omega

theorem offset_top (d : Nat) : offset d d + 1 = 2 ^ d := by
  have := offset_add (d := d) (i := d) le_rfl
  simpa using this

theorem offset_mono {d i j : Nat} (h : i ≤ j) : offset d i ≤ offset d j := by
  induction h with
  | refl => exact le_rfl
  | step _ ih => rw [offset_succ]; omega

theorem addr_lt {d l j : Nat} (hl : l < d) (hj : j < levelSize d l) : offset d l + j < offset d d := by
  have h1 := offset_mono (d := d) (i := l + 1) (j := d) (by omega)
  rw [offset_succ] at h1
  omega

theorem addr_inj {d l j l' j' : Nat} (hj : j < levelSize d l) (hj' : j' < levelSize d l')
    (h : offset d l + j = offset d l' + j') : l = l' ∧ j = j' := by
  rcases Nat.lt_trichotomy l l' with hlt | heq | hlt
  · have h1 := offset_mono (d := d) (i := l + 1) (j := l') (by omega)
    rw [offset_succ] at h1
    omega
  · subst heq; omega
  · have h1 := offset_mono (d := d) (i := l' + 1) (j := l) (by omega)
    rw [offset_succ] at h1
    omega

theorem xor_one (k : Nat) : k ^^^ 1 = if k % 2 = 0 then k + 1 else k - 1 := by
  split
  · next h => exact Nat.xor_one_of_even (Nat.even_iff.2 h)
  · next h => exact Nat.xor_one_of_odd (Nat.odd_iff.2 (by omega))

/-- The precedence quirk `index ^ (1 + offset)` is harmless, because the offset has no low bits. -/
theorem comp_addr {d l k : Nat} (hl : l + 1 < d) (hl0 : 0 < l) (hk : k < levelSize d l) :
    k ^^^ (1 + offset d l) = offset d l + (k ^^^ 1) := by
  obtain ⟨m, hm⟩ : ∃ m, d - l = m + 1 := ⟨d - l - 1, by omega⟩
  have hsz : levelSize d l = 2 ^ m := by unfold levelSize; congr 1; omega
  have hdvd : 2 ^ (m + 1) ∣ offset d l := by
    have h1 := offset_add (d := d) (i := l) (by omega)
    rw [hm] at h1
    have h2 : 2 ^ (m + 1) ∣ 2 ^ d := pow_dvd_pow 2 (by omega)
    rw [← h1] at h2
    exact (Nat.dvd_add_left (dvd_refl _)).1 h2
  obtain ⟨c, hc⟩ := hdvd
  have hm1 : 1 ≤ m := by omega
  have hp : 2 ≤ 2 ^ m := by
    calc 2 = 2 ^ 1 := rfl
      _ ≤ 2 ^ m := Nat.pow_le_pow_right (by decide) hm1
  have hp1 : 2 ^ (m + 1) = 2 * 2 ^ m := by rw [pow_succ]; ring
  rw [hsz] at hk
  rw [hc]
  generalize hP : 2 ^ (m + 1) = P at *
  have hx1 : k ^^^ 1 < P := by
    rw [← hP]
    exact Nat.xor_lt_two_pow (by omega) (by omega)
  have e1 : (k ^^^ (1 + P * c)) % P = k ^^^ 1 := by
    rw [← hP, Nat.xor_mod_two_pow, hP, Nat.mod_eq_of_lt (by omega : k < P), Nat.add_mul_mod_self_left,
      Nat.mod_eq_of_lt (by omega)]
  have e2 : (k ^^^ (1 + P * c)) / P = c := by
    rw [← hP, Nat.xor_div_two_pow, hP, Nat.div_eq_of_lt (by omega : k < P),
      Nat.add_mul_div_left _ _ (by omega), Nat.div_eq_of_lt (by omega)]
    simp
  have := Nat.div_add_mod (k ^^^ (1 + P * c)) P
  rw [e1, e2] at this
  exact this.symm

/-! ### Nodes and consistency -/

/-- Node `j` of level `l`. -/
def node (w : List ℚ) (d l j : Nat) : ℚ := w.getD (offset d l + j) 0

/-- Parent `j` of level `l + 1` is the sum of its children. -/
def Good (w : List ℚ) (d l j : Nat) : Prop := node w d (l + 1) j = node w d l (2 * j) + node w d l (2 * j + 1)

/-- All parents are consistent, except possibly the parents of the nodes `S` of level `l`. -/
def ConsEx (w : List ℚ) (d l : Nat) (S : Nat → Prop) : Prop :=
  ∀ l' j, l' + 1 < d → j < levelSize d (l' + 1) → (l' = l → ∀ s, S s → s / 2 ≠ j) → Good w d l' j

/-- All parents are consistent. -/
def Cons (w : List ℚ) (d : Nat) : Prop := ∀ l j, l + 1 < d → j < levelSize d (l + 1) → Good w d l j

theorem Cons.toEx {w : List ℚ} {d : Nat} (h : Cons w d) (l : Nat) (S : Nat → Prop) : ConsEx w d l S :=
  fun l' j h1 h2 _ => h l' j h1 h2

theorem ConsEx.top {w : List ℚ} {d l : Nat} {S : Nat → Prop} (h : ConsEx w d l S) (hl : d ≤ l + 1) : Cons w d :=
  fun l' j h1 h2 => h l' j h1 h2 (fun e => by omega)

/-- Changing leaves. -/
theorem ConsEx.leaves {w w' : List ℚ} {d : Nat} {S : Nat → Prop} (h : Cons w d)
    (hsame : ∀ l j, l < d → j < levelSize d l → (l = 0 → ¬ S j) → node w' d l j = node w d l j) :
    ConsEx w' d 0 S := by
  intro l j hl hj hS
  have hg := h l j hl hj
  have hsz := levelSize_succ hl
  unfold Good at *
  rw [hsame (l + 1) j hl hj (by omega), hsame l (2 * j) (by omega) (by omega), hsame l (2 * j + 1) (by omega) (by omega)]
  · exact hg
  · intro e hs; exact hS e _ hs (by omega)
  · intro e hs; exact hS e _ hs (by omega)

/-- One level up. -/
theorem ConsEx.step {w w' : List ℚ} {d l : Nat} {S : Nat → Prop} (h : ConsEx w d l S)
    (hS : ∀ s, S s → s < levelSize d l) (hl : l + 1 < d)
    (hsame : ∀ l' j, l' < d → j < levelSize d l' → (l' = l + 1 → ¬ ∃ s, S s ∧ s / 2 = j) →
      node w' d l' j = node w d l' j)
    (hnew : ∀ s, S s → node w' d (l + 1) (s / 2) = node w d l (2 * (s / 2)) + node w d l (2 * (s / 2) + 1)) :
    ConsEx w' d (l + 1) (fun j => ∃ s, S s ∧ s / 2 = j) := by
  intro l' j hl' hj hex
  have hsz := levelSize_succ hl'
  by_cases hc : l' = l ∧ ∃ s, S s ∧ s / 2 = j
  · obtain ⟨rfl, s, hs, rfl⟩ := hc
    unfold Good
    rw [hnew s hs, hsame l' (2 * (s / 2)) (by omega) (by omega) (by omega),
      hsame l' (2 * (s / 2) + 1) (by omega) (by omega) (by omega)]
  · have hg : Good w d l' j := by
      apply h l' j hl' hj
      intro e s hs e'
      exact hc ⟨e, s, hs, e'⟩
    unfold Good at *
    rw [hsame (l' + 1) j hl' hj, hsame l' (2 * j) (by omega) (by omega), hsame l' (2 * j + 1) (by omega) (by omega)]
    · exact hg
    · intro e ⟨s, hs, e'⟩
      exact hex e _ ⟨s, hs, e'⟩ (by omega)
    · intro e ⟨s, hs, e'⟩
      exact hex e _ ⟨s, hs, e'⟩ (by omega)
    · intro e ⟨s, hs, e'⟩
      exact hc ⟨by omega, s, hs, e'⟩

/-- Every node is the sum of the leaves below it. -/
theorem Cons.node_sum {w : List ℚ} {d : Nat} (h : Cons w d) :
    ∀ l j, l < d → j < levelSize d l →
      node w d l j = ∑ k ∈ Finset.range (2 ^ l), w.getD (j * 2 ^ l + k) 0 := by
  intro l
  induction l with
  | zero => intro j _ _; simp [node]
  | succ l ih =>
    intro j hl hj
    have hsz := levelSize_succ hl
    have hg := h l j hl hj
    unfold Good at hg
    rw [hg, ih (2 * j) (by omega) (by omega), ih (2 * j + 1) (by omega) (by omega)]
    have e : 2 ^ (l + 1) = 2 ^ l + 2 ^ l := by rw [pow_succ]; ring
    rw [e, Finset.sum_range_add]
    congr 1
    · apply Finset.sum_congr rfl
      intro k _
      congr 1; ring
    · apply Finset.sum_congr rfl
      intro k _
      congr 1; ring

/-! ### Assignment -/

@[simp] theorem length_assign (w : List ℚ) (ps : List (Nat × ℚ)) : (assign w ps).length = w.length := by
  unfold assign
  induction ps generalizing w with
  | nil => rfl
  | cons p ps ih => rw [List.foldl_cons, ih]; simp

theorem getD_set (w : List ℚ) (i j : Nat) (x : ℚ) (hi : i < w.length) :
    (w.set i x).getD j 0 = if i = j then x else w.getD j 0 := by
  simp only [List.getD_eq_getElem?_getD]
  by_cases h : i = j
  · subst h; simp [List.getElem?_set_self hi]
  · simp [List.getElem?_set_ne h, h]

theorem getD_assign (ps : List (Nat × ℚ)) : ∀ (w : List ℚ) (i : Nat), (∀ p ∈ ps, p.1 < w.length) →
    (assign w ps).getD i 0 = ps.foldl (fun x p => if p.1 = i then p.2 else x) (w.getD i 0) := by
  induction ps with
  | nil => intro w i _; rfl
  | cons p ps ih =>
    intro w i h
    have h1 : p.1 < w.length := h p (by simp)
    have : assign w (p :: ps) = assign (w.set p.1 p.2) ps := rfl
    rw [this, ih _ i (by intro q hq; rw [List.length_set]; exact h q (by simp [hq])), getD_set w p.1 i p.2 h1]
    rfl

theorem foldl_last_of_not_mem (ps : List (Nat × ℚ)) (i : Nat) (x : ℚ) (h : i ∉ ps.map (·.1)) :
    ps.foldl (fun x p => if p.1 = i then p.2 else x) x = x := by
  induction ps generalizing x with
  | nil => rfl
  | cons p ps ih =>
    simp only [List.map_cons, List.mem_cons, not_or] at h
    rw [List.foldl_cons, if_neg (fun e => h.1 e.symm), ih _ h.2]

theorem foldl_last_map (S : List Nat) (f : Nat → Nat) (g : Nat → ℚ) (j : Nat) (hj : j ∈ S)
    (hf : ∀ a ∈ S, f a = f j → a = j) (x : ℚ) :
    (S.map fun s => (f s, g s)).foldl (fun x p => if p.1 = f j then p.2 else x) x = g j := by
  induction S generalizing x with
  | nil => simp at hj
  | cons s S ih =>
    simp only [List.map_cons, List.foldl_cons]
    by_cases hjS : j ∈ S
    · exact ih hjS (fun a ha => hf a (by simp [ha])) _
    · have : j = s := by simpa [hjS] using hj
      subst this
      rw [if_pos rfl, foldl_last_of_not_mem]
      simp only [List.map_map, List.mem_map, not_exists, Function.comp]
      rintro a ⟨ha, e⟩
      exact hjS (hf a (by simp [ha]) e ▸ ha)

theorem getD_assign_not_mem {w : List ℚ} {ps : List (Nat × ℚ)} {i : Nat} (h : ∀ p ∈ ps, p.1 < w.length)
    (hi : i ∉ ps.map (·.1)) : (assign w ps).getD i 0 = w.getD i 0 := by
  rw [getD_assign ps w i h, foldl_last_of_not_mem _ _ _ hi]

theorem rd_ok {w : List ℚ} {i : Nat} (h : i < w.length) : rd w i = .ok (w.getD i 0) := by
  simp [rd, h]

theorem mem_insertUniq {a x : Nat} {l : List Nat} : x ∈ insertUniq a l ↔ x = a ∨ x ∈ l := by
  induction l with
  | nil => simp [insertUniq]
  | cons b l ih =>
    simp only [insertUniq]
    split
    · simp
    · split
      · rename_i h; subst h; simp
      · simp only [List.mem_cons, ih]; tauto

theorem mem_npUnique {l : List Nat} {a : Nat} : a ∈ npUnique l ↔ a ∈ l := by
  induction l with
  | nil => simp [npUnique]
  | cons b l ih =>
    have : npUnique (b :: l) = insertUniq b (npUnique l) := rfl
    rw [this, mem_insertUniq, ih, List.mem_cons]

/-! ### Single update -/

theorem climb_spec (d : Nat) (m : Nat) : ∀ (l idx : Nat) (w : List ℚ), l + 2 + m = d → idx < levelSize d l →
    w.length = offset d d → ConsEx w d l (fun s => s = idx) →
    ∃ w', climb d (List.range' (l + 1) m) w idx (node w d l idx) (node w d l (idx ^^^ 1)) = (w', .ok ()) ∧
      w'.length = offset d d ∧ Cons w' d ∧ ∀ l' j, l' ≤ l → j < levelSize d l' → node w' d l' j = node w d l' j := by
  induction m with
  | zero =>
    intro l idx w hd hidx hlen hc
    have htop := offset_top d
    have hroot : offset d (l + 1) + 0 = w.length - 1 := by
      have h1 := offset_add (d := d) (i := l + 1) (by omega)
      have : d - (l + 1) = 1 := by omega
      rw [this] at h1
      omega
    have hsz : levelSize d l = 2 := by
      unfold levelSize
      have : d - 1 - l = 1 := by omega
      rw [this, pow_one]
    have hsz1 : levelSize d (l + 1) = 1 := by
      have := levelSize_succ (d := d) (i := l) (by omega)
      omega
    have hpos : 0 < w.length := by
      have := addr_lt (d := d) (l := l) (j := idx) (by omega) hidx
      omega
    have hnode : ∀ l' j, l' < d → j < levelSize d l' →
        node (w.set (w.length - 1) (node w d l idx + node w d l (idx ^^^ 1))) d l' j
          = if l' = l + 1 then node w d l idx + node w d l (idx ^^^ 1) else node w d l' j := by
      intro l' j hl' hj
      unfold node
      rw [getD_set _ _ _ _ (by omega)]
      by_cases e : l' = l + 1
      · subst e
        have : j = 0 := by omega
        subst this
        simp [← hroot]
      · rw [if_neg e, if_neg]
        intro e'
        have := addr_inj (d := d) (l := l + 1) (j := 0) (l' := l') (j' := j) (by omega) hj (by omega)
        omega
    refine ⟨w.set (w.length - 1) (node w d l idx + node w d l (idx ^^^ 1)), by simp only [List.range'_zero, climb],
      by simpa using hlen, ?_, ?_⟩
    · apply ConsEx.top (l := l + 1)
      · apply ConsEx.step (S := fun s => s = idx) hc (by intro s hs; subst hs; exact hidx) (by omega)
        · intro l' j hl' hj hne
          rw [hnode l' j hl' hj, if_neg]
          intro e
          apply hne e
          subst e
          exact ⟨idx, rfl, by omega⟩
        · intro s hs
          subst hs
          rw [hnode (l + 1) _ (by omega) (by omega), if_pos rfl, xor_one]
          split
          · have e1 : 2 * (s / 2) = s := by omega
            rw [e1]
          · have e1 : 2 * (s / 2) = s - 1 := by omega
            have e2 : s - 1 + 1 = s := by omega
            rw [e1, e2]; ring
      · omega
    · intro l' j hl' hj
      rw [hnode l' j (by omega) hj, if_neg (by omega)]
  | succ m ih =>
    intro l idx w hd hidx hlen hc
    have hsz := levelSize_succ (d := d) (i := l) (by omega)
    have hsz2 := levelSize_succ (d := d) (i := l + 1) (by omega)
    have hidx' : idx / 2 < levelSize d (l + 1) := by omega
    have hxor' : idx / 2 ^^^ 1 < levelSize d (l + 1) := by
      rw [xor_one]; split <;> omega
    have haddr : idx / 2 + offset d (l + 1) < w.length := by
      have := addr_lt (d := d) (l := l + 1) (j := idx / 2) (by omega) hidx'
      omega
    set v := node w d l idx + node w d l (idx ^^^ 1) with hv
    set w1 := w.set (idx / 2 + offset d (l + 1)) v with hw1
    have hlen1 : w1.length = offset d d := by simp [hw1, hlen]
    have hnode : ∀ l' j, l' < d → j < levelSize d l' →
        node w1 d l' j = if l' = l + 1 ∧ j = idx / 2 then v else node w d l' j := by
      intro l' j hl' hj
      unfold node
      rw [hw1, getD_set _ _ _ _ haddr]
      by_cases e : l' = l + 1 ∧ j = idx / 2
      · rw [if_pos e, if_pos]
        rw [e.1, e.2]; omega
      · rw [if_neg e, if_neg]
        intro e'
        have := addr_inj (d := d) (l := l + 1) (j := idx / 2) (l' := l') (j' := j) hidx' hj (by omega)
        exact e ⟨this.1.symm, this.2.symm⟩
    have hc1 : ConsEx w1 d (l + 1) (fun s => s = idx / 2) := by
      have hstep := ConsEx.step (w' := w1) (S := fun s => s = idx) hc (by intro s hs; subst hs; exact hidx) (by omega)
        (by
          intro l' j hl' hj hne
          rw [hnode l' j hl' hj, if_neg]
          rintro ⟨e1, e2⟩
          exact hne e1 ⟨idx, rfl, e2.symm⟩)
        (by
          intro s hs
          subst hs
          rw [hnode (l + 1) _ (by omega) hidx', if_pos ⟨rfl, rfl⟩, hv, xor_one]
          split
          · have e1 : 2 * (s / 2) = s := by omega
            rw [e1]
          · have e1 : 2 * (s / 2) = s - 1 := by omega
            have e2 : s - 1 + 1 = s := by omega
            rw [e1, e2]; ring)
      intro l' j h1 h2 h3
      apply hstep l' j h1 h2
      intro e s hs
      obtain ⟨s', hs', e'⟩ := hs
      subst hs'
      exact h3 e s e'.symm
    obtain ⟨w', hrun, hlen', hcons, hsame⟩ := ih (l + 1) (idx / 2) w1 (by omega) hidx' hlen1 hc1
    refine ⟨w', ?_, hlen', hcons, ?_⟩
    · rw [List.range'_succ]
      have hrd : rd w1 (idx / 2 ^^^ (1 + offset d (l + 1))) = .ok (node w1 d (l + 1) (idx / 2 ^^^ 1)) := by
        rw [comp_addr (by omega) (by omega) hidx']
        unfold node
        apply rd_ok
        rw [hlen1]
        exact addr_lt (by omega) hxor'
      have hval : v = node w1 d (l + 1) (idx / 2) := by
        rw [hnode (l + 1) _ (by omega) hidx', if_pos ⟨rfl, rfl⟩]
      simp only [climb, haddr, if_true, ← hv, ← hw1, hrd]
      rw [← hrun, ← hval]
    · intro l' j hl' hj
      rw [hsame l' j (by omega) hj, hnode l' j (by omega) hj, if_neg (by omega)]

/-- Well-formed tree. -/
structure TInv (t : WeightTree) : Prop where
  pos : 1 ≤ t.size
  depth : t.depth = Nat.clog 2 t.size + 1
  len : t.weights.length = offset t.depth t.depth
  cons : Cons t.weights t.depth
  pad : ∀ k, t.size ≤ k → k < levelSize t.depth 0 → t.weights.getD k 0 = 0

theorem TInv.depth_pos {t : WeightTree} (h : TInv t) : 1 ≤ t.depth := by rw [h.depth]; omega

theorem TInv.size_le {t : WeightTree} (h : TInv t) : t.size ≤ levelSize t.depth 0 := by
  unfold levelSize
  rw [h.depth]
  exact Nat.le_pow_clog (by decide) _

theorem TInv.leaf_lt {t : WeightTree} (h : TInv t) {k : Nat} (hk : k < levelSize t.depth 0) :
    k < t.weights.length := by
  rw [h.len]
  have := addr_lt (d := t.depth) (l := 0) (j := k) h.depth_pos hk
  simpa using this

theorem getD_replicate_zero (n k : Nat) : (List.replicate n (0 : ℚ)).getD k 0 = 0 := by
  simp only [List.getD_eq_getElem?_getD, List.getElem?_replicate]
  split <;> rfl

theorem TInv.new {n : Nat} (hn : 1 ≤ n) : TInv (WeightTree.new n) := by
  refine ⟨hn, rfl, by simp [WeightTree.new], ?_, ?_⟩
  · intro l j _ _
    simp only [Good, node, WeightTree.new, getD_replicate_zero, add_zero]
  · intro k _ _
    simp only [WeightTree.new, getD_replicate_zero]

/-- The root. -/
theorem TInv.weightSum_eq {t : WeightTree} (h : TInv t) :
    t.weightSum = ∑ k ∈ Finset.range t.size, t.weights.getD k 0 := by
  have hd := h.depth_pos
  have htop := offset_top t.depth
  have hlast : t.weightSum = node t.weights t.depth (t.depth - 1) 0 := by
    have h1 := offset_add (d := t.depth) (i := t.depth - 1) (by omega)
    have e : t.depth - (t.depth - 1) = 1 := by omega
    rw [e] at h1
    have hl := h.len
    have e2 : offset t.depth (t.depth - 1) + 0 = t.weights.length - 1 := by omega
    unfold WeightTree.weightSum node
    rw [e2, List.getLastD_eq_getLast?, List.getLast?_eq_getElem?, List.getD_eq_getElem?_getD]
  rw [hlast, h.cons.node_sum (t.depth - 1) 0 (by omega) (levelSize_pos _ _)]
  have hsz : 2 ^ (t.depth - 1) = levelSize t.depth 0 := by unfold levelSize; congr 1
  rw [hsz]
  have hle := h.size_le
  obtain ⟨r, hr⟩ : ∃ r, levelSize t.depth 0 = t.size + r := ⟨_, (Nat.add_sub_cancel' hle).symm⟩
  rw [hr, Finset.sum_range_add]
  have : ∑ x ∈ Finset.range r, t.weights.getD (0 * (t.size + r) + (t.size + x)) 0 = 0 := by
    apply Finset.sum_eq_zero
    intro x hx
    rw [Nat.zero_mul, Nat.zero_add]
    apply h.pad
    · omega
    · rw [hr]; have := Finset.mem_range.1 hx; omega
  rw [this, add_zero]
  apply Finset.sum_congr rfl
  intro k _
  rw [Nat.zero_mul, Nat.zero_add]

theorem updateLeaf_spec {t : WeightTree} (h : TInv t) (h2 : 2 ≤ t.size) (x : ℚ) (k : Nat) (hk : k < t.size) :
    ∃ t', t.updateLeaf x k = (t', .ok ()) ∧ TInv t' ∧ t'.size = t.size ∧ t'.maxLeaf = max x t.maxLeaf ∧
      ∀ i, i < t.size → t'.weights.getD i 0 = if i = k then x else t.weights.getD i 0 := by
  have hle := h.size_le
  have hd : 2 ≤ t.depth := by
    rw [h.depth]
    have := Nat.clog_pos (b := 2) (by decide) h2
    omega
  have hklen := h.leaf_lt (k := k) (by omega)
  have hx : k ^^^ 1 < levelSize t.depth 0 := by
    have := levelSize_succ (d := t.depth) (i := 0) (by omega)
    rw [xor_one]; split <;> omega
  set w1 := t.weights.set k x with hw1
  have hnode : ∀ l j, l < t.depth → j < levelSize t.depth l →
      node w1 t.depth l j = if l = 0 ∧ j = k then x else node t.weights t.depth l j := by
    intro l j hl hj
    unfold node
    rw [hw1, getD_set _ _ _ _ hklen]
    by_cases e : l = 0 ∧ j = k
    · rw [if_pos e, if_pos]
      rw [e.1, e.2]; simp
    · rw [if_neg e, if_neg]
      intro e'
      have := addr_inj (d := t.depth) (l := 0) (j := k) (l' := l) (j' := j) (by omega) hj (by simpa using e')
      exact e ⟨this.1.symm, this.2.symm⟩
  have hc1 : ConsEx w1 t.depth 0 (fun s => s = k) := by
    apply ConsEx.leaves h.cons
    intro l j hl hj hne
    rw [hnode l j hl hj, if_neg]
    rintro ⟨e1, e2⟩
    exact hne e1 e2
  have hlen1 : w1.length = offset t.depth t.depth := by simp [hw1, h.len]
  obtain ⟨w', hrun, hlen', hcons, hsame⟩ := climb_spec t.depth (t.depth - 2) 0 k w1 (by omega) (by omega) hlen1 hc1
  have hval : node w1 t.depth 0 k = x := by rw [hnode 0 k (by omega) (by omega), if_pos ⟨rfl, rfl⟩]
  have hrd : rd w1 (k ^^^ 1) = .ok (node w1 t.depth 0 (k ^^^ 1)) := by
    unfold node
    rw [offset_zero, Nat.zero_add]
    apply rd_ok
    rw [hlen1, ← h.len]
    exact h.leaf_lt hx
  have hleaf : ∀ i, i < levelSize t.depth 0 → w'.getD i 0 = if i = k then x else t.weights.getD i 0 := by
    intro i hi
    have e1 := hsame 0 i le_rfl hi
    rw [hnode 0 i (by omega) hi] at e1
    simpa [node] using e1
  refine ⟨{ t with maxLeaf := max x t.maxLeaf, weights := w' }, ?_, ?_, rfl, rfl, ?_⟩
  · rw [hval] at hrun
    have hin : (0 : Int) ≤ (k : Int) ∧ (k : Int) ≤ (t.size : Int) := by omega
    simp only [WeightTree.updateLeaf, hin, and_self, not_true, if_false, Int.toNat_natCast, hklen, if_true, ← hw1, hrd]
    rw [hrun]
  · refine ⟨h.pos, h.depth, hlen', hcons, ?_⟩
    intro i hi hi'
    show w'.getD i 0 = 0
    rw [hleaf i hi', if_neg (by simp only at hi; omega)]
    exact h.pad i hi hi'
  · intro i hi
    exact hleaf i (by omega)

/-! ### Batched update -/

theorem climbBatch_spec (d : Nat) (m : Nat) : ∀ (l : Nat) (needs : List Nat) (w : List ℚ), l + 1 + m = d →
    (∀ s ∈ needs, s < levelSize d l) → w.length = offset d d → ConsEx w d l (fun s => s ∈ needs) →
    (climbBatch d (List.range' (l + 1) m) w needs).length = offset d d ∧
    Cons (climbBatch d (List.range' (l + 1) m) w needs) d ∧
    ∀ l' j, l' ≤ l → j < levelSize d l' → node (climbBatch d (List.range' (l + 1) m) w needs) d l' j = node w d l' j := by
  induction m with
  | zero =>
    intro l needs w hd hneeds hlen hc
    exact ⟨hlen, hc.top (by omega), fun _ _ _ _ => rfl⟩
  | succ m ih =>
    intro l needs w hd hneeds hlen hc
    have hsz := levelSize_succ (d := d) (i := l) (by omega)
    simp only [List.range'_succ, climbBatch]
    set ns := npUnique (needs.map (· / 2)) with hns
    have hmem : ∀ j, j ∈ ns ↔ ∃ s, s ∈ needs ∧ s / 2 = j := by
      intro j; rw [hns, mem_npUnique]; simp
    have hns_lt : ∀ j ∈ ns, j < levelSize d (l + 1) := by
      intro j hj
      obtain ⟨s, hs, rfl⟩ := (hmem j).1 hj
      have := hneeds s hs
      omega
    rw [Nat.add_sub_cancel]
    set ps := ns.map (fun j => (offset d (l + 1) + j,
      w.getD (offset d l + j * 2) 0 + w.getD (offset d l + j * 2 + 1) 0)) with hps
    have hin : ∀ p ∈ ps, p.1 < w.length := by
      intro p hp
      rw [hps, List.mem_map] at hp
      obtain ⟨j, hj, rfl⟩ := hp
      rw [hlen]
      exact addr_lt (by omega) (hns_lt j hj)
    have hnew : ∀ j, j ∈ ns → node (assign w ps) d (l + 1) j = node w d l (2 * j) + node w d l (2 * j + 1) := by
      intro j hj
      unfold node
      rw [getD_assign ps w _ hin, hps,
        foldl_last_map ns (fun j => offset d (l + 1) + j)
          (fun j => w.getD (offset d l + j * 2) 0 + w.getD (offset d l + j * 2 + 1) 0) j hj (fun a _ e => by simpa using e)]
      rw [Nat.mul_comm j 2, Nat.add_assoc]
    have hsame : ∀ l' j, l' < d → j < levelSize d l' → (l' = l + 1 → j ∉ ns) →
        node (assign w ps) d l' j = node w d l' j := by
      intro l' j hl' hj hne
      unfold node
      apply getD_assign_not_mem hin
      rw [hps, List.map_map, List.mem_map]
      rintro ⟨a, ha, e⟩
      have := addr_inj (d := d) (l := l + 1) (j := a) (l' := l') (j' := j) (hns_lt a ha) hj e
      apply hne this.1.symm
      rw [← this.2]; exact ha
    have hc1 : ConsEx (assign w ps) d (l + 1) (fun s => s ∈ ns) := by
      have hstep := ConsEx.step (w' := assign w ps) (S := fun s => s ∈ needs) hc hneeds (by omega)
        (by
          intro l' j hl' hj hne
          apply hsame l' j hl' hj
          intro e hj'
          exact hne e ((hmem j).1 hj'))
        (by
          intro s hs
          exact hnew _ ((hmem _).2 ⟨s, hs, rfl⟩))
      intro l' j h1 h2 h3
      apply hstep l' j h1 h2
      intro e s hs
      exact h3 e s ((hmem s).2 hs)
    obtain ⟨h1, h2, h3⟩ := ih (l + 1) ns (assign w ps) (by omega) hns_lt (by simp [hlen]) hc1
    refine ⟨h1, h2, ?_⟩
    intro l' j hl' hj
    rw [h3 l' j (by omega) hj, hsame l' j (by omega) hj (by omega)]

theorem updateLeafBatch_spec {t : WeightTree} (h : TInv t) (ws : List ℚ) (is : List Nat) (hlen : ws.length = is.length)
    (hin : ∀ i ∈ is, i < t.size) :
    ∃ t', t.updateLeafBatch ws (is.map Int.ofNat) = (t', .ok ()) ∧ TInv t' ∧ t'.size = t.size ∧
      t'.maxLeaf = (if ws = [] then t.maxLeaf else max (npMax ws) t.maxLeaf) ∧
      ∀ i, i < t.size → t'.weights.getD i 0 =
        (is.zip ws).foldl (fun x p => if p.1 = i then p.2 else x) (t.weights.getD i 0) := by
  by_cases h0 : ws = []
  · subst h0
    have : is = [] := by simpa using hlen.symm
    subst this
    exact ⟨t, by simp [WeightTree.updateLeafBatch], h, rfl, by simp, fun i _ => rfl⟩
  · have hle := h.size_le
    have hmap : (is.map Int.ofNat).map Int.toNat = is := by
      rw [List.map_map]
      have : Int.toNat ∘ Int.ofNat = id := rfl
      rw [this, List.map_id]
    have hchk : ¬ ((∃ i ∈ is.map Int.ofNat, i ≥ (t.size : Int)) ∨ (∃ i ∈ is.map Int.ofNat, i < 0)) := by
      rintro (⟨i, hi, h1⟩ | ⟨i, hi, h1⟩)
      · obtain ⟨j, hj, rfl⟩ := List.mem_map.1 hi
        have := hin j hj
        simp only [Int.ofNat_eq_natCast] at h1
        omega
      · obtain ⟨j, hj, rfl⟩ := List.mem_map.1 hi
        simp only [Int.ofNat_eq_natCast] at h1
        omega
    have hps : ∀ p ∈ is.zip ws, p.1 < t.weights.length := by
      intro p hp
      have := (List.of_mem_zip hp).1
      exact h.leaf_lt (by have := hin _ this; omega)
    set w1 := assign t.weights (is.zip ws) with hw1
    have hleaf1 : ∀ i, w1.getD i 0 = (is.zip ws).foldl (fun x p => if p.1 = i then p.2 else x) (t.weights.getD i 0) :=
      fun i => getD_assign _ _ _ hps
    have hsame1 : ∀ i, i ∉ is → w1.getD i 0 = t.weights.getD i 0 := by
      intro i hi
      apply getD_assign_not_mem hps
      intro hm
      obtain ⟨p, hp, rfl⟩ := List.mem_map.1 hm
      exact hi (List.of_mem_zip hp).1
    have hc1 : ConsEx w1 t.depth 0 (fun s => s ∈ is) := by
      apply ConsEx.leaves h.cons
      intro l j hl hj hne
      unfold node
      apply hsame1
      intro hm
      have := addr_inj (d := t.depth) (l := 0) (j := offset t.depth l + j) (l' := l) (j' := j)
        (by have := hin _ hm; omega) hj (by simp)
      apply hne this.1.symm
      rw [← this.2]; exact hm
    have hd := h.depth_pos
    obtain ⟨g1, g2, g3⟩ := climbBatch_spec t.depth (t.depth - 1) 0 is w1 (by omega)
      (fun s hs => by have := hin s hs; omega) (by simp [hw1, h.len]) hc1
    refine ⟨{ t with maxLeaf := max (npMax ws) t.maxLeaf, weights := climbBatch t.depth (List.range' 1 (t.depth - 1)) w1 is },
      ?_, ?_, rfl, by simp [h0], ?_⟩
    · have hl : ¬ (ws.length ≠ (is.map Int.ofNat).length) := by simp [hlen]
      have hl0 : ¬ ws.length = 0 := by simpa using h0
      simp only [WeightTree.updateLeafBatch, hl, hl0, hchk, if_false, hmap, ← hw1]
    · refine ⟨h.pos, h.depth, g1, g2, ?_⟩
      intro i hi hi'
      have := g3 0 i le_rfl hi'
      simp only [node, offset_zero, Nat.zero_add] at this
      show List.getD _ i 0 = 0
      rw [this, hsame1 i, h.pad i hi hi']
      intro hm
      have := hin i hm
      simp only at hi
      omega
    · intro i hi
      have := g3 0 i le_rfl (by omega)
      simp only [node, offset_zero, Nat.zero_add] at this
      show List.getD _ i 0 = _
      rw [this, hleaf1]

/-! ### Rebuild -/

theorem buildLoop_spec (d : Nat) (m : Nat) : ∀ (l : Nat) (w : List ℚ), l + 1 + m = d → w.length = offset d d →
    (∀ l' j, l' < l → j < levelSize d (l' + 1) → Good w d l' j) →
    (buildLoop d (List.range' l m) w).length = offset d d ∧ Cons (buildLoop d (List.range' l m) w) d ∧
    ∀ l' j, l' ≤ l → j < levelSize d l' → node (buildLoop d (List.range' l m) w) d l' j = node w d l' j := by
  induction m with
  | zero =>
    intro l w hd hlen hg
    simp only [List.range'_zero, buildLoop]
    exact ⟨hlen, fun l' j h1 h2 => hg l' j (by omega) h2, fun _ _ _ _ => by trivial⟩
  | succ m ih =>
    intro l w hd hlen hg
    simp only [List.range'_succ, buildLoop]
    have hsz := levelSize_succ (d := d) (i := l) (by omega)
    set ps := (List.range (levelSize d (l + 1))).map (fun j => (offset d l + levelSize d l + j,
      w.getD (offset d l + 2 * j) 0 + w.getD (offset d l + 2 * j + 1) 0)) with hps
    have hin : ∀ p ∈ ps, p.1 < w.length := by
      intro p hp
      rw [hps, List.mem_map] at hp
      obtain ⟨j, hj, rfl⟩ := hp
      rw [hlen, ← offset_succ]
      exact addr_lt (by omega) (List.mem_range.1 hj)
    have hnew : ∀ j, j < levelSize d (l + 1) →
        node (assign w ps) d (l + 1) j = node w d l (2 * j) + node w d l (2 * j + 1) := by
      intro j hj
      unfold node
      rw [getD_assign ps w _ hin, hps, offset_succ,
        foldl_last_map _ (fun j => offset d l + levelSize d l + j)
          (fun j => w.getD (offset d l + 2 * j) 0 + w.getD (offset d l + 2 * j + 1) 0) j (List.mem_range.2 hj)
          (fun a _ e => by simpa using e)]
      rfl
    have hsame : ∀ l' j, l' ≠ l + 1 → j < levelSize d l' → node (assign w ps) d l' j = node w d l' j := by
      intro l' j hne hj
      unfold node
      apply getD_assign_not_mem hin
      rw [hps, List.map_map, List.mem_map]
      rintro ⟨a, ha, e⟩
      have := addr_inj (d := d) (l := l + 1) (j := a) (l' := l') (j' := j) (List.mem_range.1 ha) hj
        (by rw [offset_succ]; exact e)
      exact hne this.1.symm
    obtain ⟨h1, h2, h3⟩ := ih (l + 1) (assign w ps) (by omega) (by simp [hlen])
      (by
        intro l' j hl' hj
        have hsz' := levelSize_succ (d := d) (i := l') (by omega)
        unfold Good
        by_cases e : l' = l
        · subst e
          rw [hnew j hj, hsame l' _ (by omega) (by omega), hsame l' _ (by omega) (by omega)]
        · rw [hsame (l' + 1) j (by omega) hj, hsame l' _ (by omega) (by omega), hsame l' _ (by omega) (by omega)]
          exact hg l' j (by omega) hj)
    refine ⟨h1, h2, ?_⟩
    intro l' j hl' hj
    rw [h3 l' j (by omega) hj, hsame l' j (by omega) hj]

theorem updateAllLeaves_spec {t : WeightTree} (h : TInv t) (ws : List ℚ) (hlen : ws.length = t.size) :
    ∃ t', t.updateAllLeaves ws = (t', .ok ()) ∧ TInv t' ∧ t'.size = t.size ∧ t'.maxLeaf = npMax ws ∧
      ∀ i, i < t.size → t'.weights.getD i 0 = ws.getD i 0 := by
  have hle := h.size_le
  have hd := h.depth_pos
  have hsl : t.size ≤ t.weights.length := by
    have := h.leaf_lt (k := t.size - 1) (by have := h.pos; omega)
    omega
  set w1 := ws ++ t.weights.drop ws.length with hw1
  have hlen1 : w1.length = offset t.depth t.depth := by
    rw [hw1, List.length_append, List.length_drop, ← h.len]; omega
  obtain ⟨g1, g2, g3⟩ := buildLoop_spec t.depth (t.depth - 1) 0 w1 (by omega) hlen1 (by intro l' j h1; omega)
  have hw1lo : ∀ i, i < t.size → w1.getD i 0 = ws.getD i 0 := by
    intro i hi
    simp only [List.getD_eq_getElem?_getD, hw1, List.getElem?_append_left (by omega : i < ws.length)]
  have hw1hi : ∀ i, t.size ≤ i → w1.getD i 0 = t.weights.getD i 0 := by
    intro i hi
    simp only [List.getD_eq_getElem?_getD, hw1, List.getElem?_append_right (by omega : ws.length ≤ i),
      List.getElem?_drop]
    congr 2; omega
  have hb : ∀ i, i < levelSize t.depth 0 →
      (buildLoop t.depth (List.range (t.depth - 1)) w1).getD i 0 = w1.getD i 0 := by
    intro i hi
    have := g3 0 i le_rfl hi
    simp only [node, offset_zero, Nat.zero_add] at this
    rw [List.range_eq_range']
    exact this
  refine ⟨{ t with maxLeaf := npMax (w1.take t.size),
                   weights := buildLoop t.depth (List.range (t.depth - 1)) w1 }, ?_, ?_, rfl, ?_, ?_⟩
  · simp only [WeightTree.updateAllLeaves, hlen, ne_eq, not_true, if_false, hw1]
  · refine ⟨h.pos, h.depth, ?_, ?_, ?_⟩
    · show (buildLoop _ _ _).length = _
      rw [List.range_eq_range']; exact g1
    · show Cons (buildLoop _ _ _) _
      rw [List.range_eq_range']; exact g2
    · intro i hi hi'
      show List.getD _ i 0 = 0
      rw [hb i hi', hw1hi i hi, h.pad i hi hi']
  · show npMax (w1.take t.size) = npMax ws
    rw [hw1, ← hlen, List.take_left]
  · intro i hi
    show List.getD _ i 0 = _
    rw [hb i (by omega), hw1lo i hi]

/-! ### Lookup -/

/-- Sum of the first `k` leaves. -/
def prefixSum (w : List ℚ) (k : Nat) : ℚ := ∑ i ∈ Finset.range k, w.getD i 0

theorem prefixSum_succ (w : List ℚ) (k : Nat) : prefixSum w (k + 1) = prefixSum w k + w.getD k 0 := by
  simp [prefixSum, Finset.sum_range_succ]

theorem prefixSum_block {w : List ℚ} {d : Nat} (h : Cons w d) {l j : Nat} (hl : l < d) (hj : j < levelSize d l) :
    prefixSum w ((j + 1) * 2 ^ l) = prefixSum w (j * 2 ^ l) + node w d l j := by
  rw [h.node_sum l j hl hj]
  unfold prefixSum
  have : (j + 1) * 2 ^ l = j * 2 ^ l + 2 ^ l := by ring
  rw [this, Finset.sum_range_add]

theorem descend_spec {w : List ℚ} {d : Nat} (hlen : w.length = offset d d) (h : Cons w d) (q : ℚ) :
    ∀ (l idx : Nat) (r : ℚ), l + 1 ≤ d → idx < levelSize d l → q = prefixSum w (idx * 2 ^ l) + r → 0 < r →
      r ≤ node w d l idx →
      ∃ i, descend d w (List.range l).reverse idx r = .ok i ∧ i < levelSize d 0 ∧
        prefixSum w i < q ∧ q ≤ prefixSum w (i + 1) := by
  intro l
  induction l with
  | zero =>
    intro idx r hl hidx hq hr hle
    refine ⟨idx, by simp [descend], hidx, ?_, ?_⟩
    · rw [hq]; simpa using hr
    · rw [prefixSum_succ, hq]
      simp only [node, offset_zero, Nat.zero_add, pow_zero, Nat.mul_one] at *
      linarith
  | succ l ih =>
    intro idx r hl hidx hq hr hle
    have hsz := levelSize_succ (d := d) (i := l) (by omega)
    have hg := h l idx (by omega) hidx
    unfold Good at hg
    have hrd : rd w (offset d l + idx * 2) = .ok (node w d l (2 * idx)) := by
      unfold node
      rw [Nat.mul_comm idx 2]
      apply rd_ok
      rw [hlen]
      exact addr_lt (by omega) (by omega)
    rw [List.range_succ, List.reverse_append, List.reverse_singleton, List.singleton_append]
    simp only [descend, hrd]
    have e1 : idx * 2 ^ (l + 1) = (idx * 2) * 2 ^ l := by rw [pow_succ]; ring
    by_cases hc : r > node w d l (2 * idx)
    · rw [if_pos hc]
      apply ih (idx * 2 + 1) (r - node w d l (2 * idx)) (by omega) (by omega)
      · rw [prefixSum_block h (by omega) (by omega : idx * 2 < levelSize d l), ← e1, hq, Nat.mul_comm idx 2]
        ring
      · linarith
      · rw [Nat.mul_comm idx 2]; linarith
    · rw [if_neg hc]
      apply ih (idx * 2) r (by omega) (by omega)
      · rw [← e1, hq]
      · exact hr
      · rw [Nat.mul_comm idx 2]; linarith

theorem descend_zero {w : List ℚ} {d : Nat} (hlen : w.length = offset d d) (hd : 1 ≤ d)
    (hnn : ∀ l, l < d → 0 ≤ node w d l 0) : ∀ l, l + 1 ≤ d → descend d w (List.range l).reverse 0 0 = .ok 0 := by
  intro l
  induction l with
  | zero => intro _; simp [descend]
  | succ l ih =>
    intro hl
    have hrd : rd w (offset d l + 0 * 2) = .ok (node w d l 0) := by
      unfold node
      rw [Nat.zero_mul]
      apply rd_ok
      rw [hlen]
      exact addr_lt (by omega) (levelSize_pos _ _)
    rw [List.range_succ, List.reverse_append, List.reverse_singleton, List.singleton_append]
    simp only [descend, hrd]
    rw [if_neg (by have := hnn l (by omega); linarith)]
    rw [Nat.zero_mul]
    exact ih (by omega)

theorem TInv.prefix_size {t : WeightTree} (h : TInv t) : prefixSum t.weights t.size = t.weightSum :=
  h.weightSum_eq.symm

theorem findOne_spec {t : WeightTree} (h : TInv t) (q : ℚ) (hq : 0 < q) (hq' : q ≤ t.weightSum) :
    ∃ i, t.findOne q = .ok i ∧ i < t.size ∧ prefixSum t.weights i < q ∧ q ≤ prefixSum t.weights (i + 1) := by
  have hd := h.depth_pos
  have hroot : node t.weights t.depth (t.depth - 1) 0 = t.weightSum := by
    rw [h.weightSum_eq]
    have := h.cons.node_sum (t.depth - 1) 0 (by omega) (levelSize_pos _ _)
    rw [this]
    have hsz : 2 ^ (t.depth - 1) = levelSize t.depth 0 := by unfold levelSize; congr 1
    rw [hsz]
    have hle := h.size_le
    obtain ⟨r, hr⟩ : ∃ r, levelSize t.depth 0 = t.size + r := ⟨_, (Nat.add_sub_cancel' hle).symm⟩
    rw [hr, Finset.sum_range_add]
    have : ∑ x ∈ Finset.range r, t.weights.getD (0 * (t.size + r) + (t.size + x)) 0 = 0 := by
      apply Finset.sum_eq_zero
      intro x hx
      rw [Nat.zero_mul, Nat.zero_add]
      apply h.pad
      · omega
      · rw [hr]; have := Finset.mem_range.1 hx; omega
    rw [this, add_zero]
    apply Finset.sum_congr rfl
    intro k _
    rw [Nat.zero_mul, Nat.zero_add]
  obtain ⟨i, h1, h2, h3, h4⟩ := descend_spec h.len h.cons q (t.depth - 1) 0 q (by omega) (levelSize_pos _ _)
    (by simp [prefixSum]) hq (by rw [hroot]; exact hq')
  have hi : i < t.size := by
    by_contra hge
    have : t.weights.getD i 0 = 0 := h.pad i (by omega) h2
    rw [prefixSum_succ, this] at h4
    linarith
  refine ⟨i, ?_, hi, h3, h4⟩
  simp only [WeightTree.findOne, h1]
  congr 1; omega

theorem prefixSum_mono {t : WeightTree} (hnn : ∀ i, i < t.size → 0 ≤ t.weights.getD i 0) {a b : Nat} (hab : a ≤ b)
    (hb : b ≤ t.size) : prefixSum t.weights a ≤ prefixSum t.weights b := by
  induction hab with
  | refl => exact le_rfl
  | step hab ih =>
    rw [prefixSum_succ]
    have := hnn _ (Nat.lt_of_succ_le hb)
    have := ih (by omega)
    linarith

theorem findOne_zero {t : WeightTree} (h : TInv t) (hnn : ∀ i, i < t.size → 0 ≤ t.weights.getD i 0) :
    t.findOne 0 = .ok 0 := by
  have hd := h.depth_pos
  have hle := h.size_le
  have h0 : descend t.depth t.weights (List.range (t.depth - 1)).reverse 0 0 = .ok 0 := by
    apply descend_zero h.len hd _ _ (by omega)
    intro l hl
    rw [h.cons.node_sum l 0 hl (levelSize_pos _ _)]
    apply Finset.sum_nonneg
    intro k hk
    rw [Nat.zero_mul, Nat.zero_add]
    have hk' : k < levelSize t.depth 0 := by
      have h1 := Finset.mem_range.1 hk
      have h2 : 2 ^ l ≤ levelSize t.depth 0 := by
        unfold levelSize
        exact Nat.pow_le_pow_right (by decide) (by omega)
      omega
    by_cases hs : k < t.size
    · exact hnn k hs
    · rw [h.pad k (by omega) hk']
  simp [WeightTree.findOne, h0]

end Machin.Prio
