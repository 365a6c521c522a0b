import Verif.Noise.Model
import Mathlib.Data.List.Nodup

/-! # Helper lemmas for the parameter noise hooks -/

namespace Machin.Noise

theorem map_update_ne {K : Type} (h : Nat → K) (a : Nat) (v : K) (ps : List Nat) (hn : a ∉ ps) :
    ps.map (Function.update h a v) = ps.map h := by
  apply List.map_congr_left
  intro p hp
  exact Function.update_of_ne (by rintro rfl; exact hn hp) _ _

/-- What `generate` produces. -/
theorem generate_spec {K : Type} [Add K] (noise : Nat → K) (k : Nat) (h : Nat → K) (next : Nat) (ps : List Nat) (hnd : ps.Nodup)
    (hlt : ∀ p ∈ ps, p < next) :
    let r := generate noise k h next ps
    next ≤ r.2.1 ∧ r.2.2.1.length = ps.length ∧ r.2.2.2.length = ps.length ∧ r.2.2.1.map r.1 = ps.map h ∧
      (∀ i p, ps[i]? = some p → r.1 p = h p + noise (k + i)) ∧
      (∀ i p, r.2.2.2[i]? = some p → ∃ q, ps[i]? = some q ∧ r.1 p = h q + noise (k + i)) ∧
      (∀ a, a < next → a ∉ ps → r.1 a = h a) ∧
      (∀ a ∈ r.2.2.1, next ≤ a ∧ a < r.2.1) ∧ (∀ a ∈ r.2.2.2, next ≤ a ∧ a < r.2.1) ∧ (r.2.2.1 ++ r.2.2.2).Nodup := by
  induction ps generalizing k h next with
  | nil => simp [generate]
  | cons p ps ih =>
    have hnd' := List.nodup_cons.mp hnd
    have hp := hlt p (by simp)
    unfold generate
    simp only
    generalize hH : Function.update (Function.update (Function.update h next (h p)) p (Function.update h next (h p) p + noise k)) (next + 1)
      (Function.update (Function.update h next (h p)) p (Function.update h next (h p) p + noise k) p) = H
    have hHn : H next = h p := by
      rw [← hH, Function.update_of_ne (by omega), Function.update_of_ne (by omega), Function.update_self]
    have hHp : H p = h p + noise k := by
      rw [← hH, Function.update_of_ne (by omega), Function.update_self, Function.update_of_ne (by omega)]
    have hHn1 : H (next + 1) = h p + noise k := by
      rw [← hH, Function.update_self, Function.update_self, Function.update_of_ne (by omega)]
    have hHo : ∀ a, a < next → a ≠ p → H a = h a := by
      intro a ha hap
      rw [← hH, Function.update_of_ne (by omega), Function.update_of_ne hap, Function.update_of_ne (by omega)]
    have hHps : ps.map H = ps.map h := by
      apply List.map_congr_left
      intro q hq
      exact hHo q (hlt q (by simp [hq])) (by rintro rfl; exact hnd'.1 hq)
    have := ih (k + 1) H (next + 2) hnd'.2 (fun q hq => by have := hlt q (by simp [hq]); omega)
    simp only at this
    generalize generate noise (k + 1) H (next + 2) ps = r at this
    obtain ⟨h', next', org, noisy⟩ := r
    simp only at this
    obtain ⟨i1, i2, i3, i4, i5, i6, i7, i8, i9, i10⟩ := this
    simp only
    have kn : h' next = h p := by rw [i7 next (by omega) (fun hq => by have := hlt next (by simp [hq]); omega), hHn]
    have kn1 : h' (next + 1) = h p + noise k := by
      rw [i7 (next + 1) (by omega) (fun hq => by have := hlt (next + 1) (by simp [hq]); omega), hHn1]
    have kp : h' p = h p + noise k := by rw [i7 p (by omega) hnd'.1, hHp]
    refine ⟨by omega, by simp [i2], by simp [i3], ?_, ?_, ?_, ?_, ?_, ?_, ?_⟩
    · simp only [List.map_cons, kn, i4, hHps]
    · intro i q hq
      cases i with
      | zero => simp at hq; subst hq; simpa using kp
      | succ i =>
        simp only [List.getElem?_cons_succ] at hq
        have hm := List.mem_of_getElem? hq
        rw [i5 i q hq, hHo q (hlt q (by simp [hm])) (by rintro rfl; exact hnd'.1 hm)]
        congr 2
        omega
    · intro i q hq
      cases i with
      | zero => simp at hq; subst hq; exact ⟨p, by simp, by simpa using kn1⟩
      | succ i =>
        simp only [List.getElem?_cons_succ] at hq
        obtain ⟨q', g1, g2⟩ := i6 i q hq
        have hm := List.mem_of_getElem? g1
        refine ⟨q', by simpa using g1, ?_⟩
        rw [g2, hHo q' (hlt q' (by simp [hm])) (by rintro rfl; exact hnd'.1 hm)]
        congr 2
        omega
    · intro a ha hap
      simp only [List.mem_cons, not_or] at hap
      rw [i7 a (by omega) hap.2, hHo a ha hap.1]
    · intro a ha
      rcases List.mem_cons.mp ha with rfl | ha
      · omega
      · have := i8 a ha; omega
    · intro a ha
      rcases List.mem_cons.mp ha with rfl | ha
      · omega
      · have := i9 a ha; omega
    · rw [List.cons_append, List.nodup_cons]
      refine ⟨?_, ?_⟩
      · rw [List.mem_append, List.mem_cons]
        rintro (h1 | h1 | h1)
        · have := i8 _ h1; omega
        · omega
        · have := i9 _ h1; omega
      · rw [List.nodup_append] at i10 ⊢
        refine ⟨i10.1, ?_, ?_⟩
        · rw [List.nodup_cons]
          refine ⟨fun h1 => ?_, i10.2.1⟩
          have := i9 _ h1
          omega
        · intro a ha b hb hab
          rcases List.mem_cons.mp hb with rfl | hb
          · have := i8 a ha; omega
          · exact i10.2.2 a ha b hb hab

theorem stepHeap_spec {K : Type} [Sub K] (delta : Nat → K) (k : Nat) (h : Nat → K) (ps : List Nat) (hnd : ps.Nodup) :
    (∀ a, a ∉ ps → stepHeap delta k h ps a = h a) ∧ ∀ i p, ps[i]? = some p → stepHeap delta k h ps p = h p - delta (k + i) := by
  induction ps generalizing k h with
  | nil => simp [stepHeap]
  | cons p ps ih =>
    have hnd' := List.nodup_cons.mp hnd
    obtain ⟨i1, i2⟩ := ih (k + 1) (Function.update h p (h p - delta k)) hnd'.2
    unfold stepHeap
    refine ⟨?_, ?_⟩
    · intro a ha
      simp only [List.mem_cons, not_or] at ha
      rw [i1 a ha.2, Function.update_of_ne ha.1]
    · intro i q hq
      cases i with
      | zero =>
        simp at hq
        subst hq
        rw [i1 p hnd'.1, Function.update_self]
        rfl
      | succ i =>
        simp only [List.getElem?_cons_succ] at hq
        have hm := List.mem_of_getElem? hq
        rw [i2 i q hq, Function.update_of_ne (by rintro rfl; exact hnd'.1 hm)]
        congr 2
        omega

end Machin.Noise
