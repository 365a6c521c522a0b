import Verif.Impala.PropsClosed
import Verif.Returns.LemmasEpisodes

/-! # Lemmas on the v-trace targets of the episodes that a policy plays -/

namespace Machin.Impala

open Finset Machin.Returns Machin.Returns.Spec

variable {K S A Ω : Type} [CommRing K] [LinearOrder K]

/-- The targets of one episode. -/
def targets (h : Hyper K) (ep : List (Datum K)) : List K := (vtrace h ep [ep.length]).1

theorem targets_length (h : Hyper K) (ep : List (Datum K)) : (targets h ep).length = ep.length := by
  by_contra hne
  rcases Nat.lt_or_gt_of_ne hne with hl | hl
  · have := C201_closed h ep (targets h ep).length (ep.length - 1 - (targets h ep).length) (by omega)
    unfold targets at this hl
    rw [List.getElem?_eq_none (Nat.le_refl _)] at this
    cases this
  · have e : targets h ep = revLoop h ep 0 (ep.length - 1) (List.replicate ep.length 0) := rfl
    rw [e, length_revLoop] at hl
    simp at hl

theorem formula_cons (h : Hyper K) (x : Datum K) (ep : List (Datum K)) (t m : Nat) : formula h (x :: ep) (t + 1) m = formula h ep t m := by
  have h1 : ∀ i, valueAt (x :: ep) (t + 1 + i) = valueAt ep (t + i) := by
    intro i; unfold valueAt; rw [show t + 1 + i = t + i + 1 by omega, List.getElem?_cons_succ]
  have h2 : ∀ i, weightAt h (x :: ep) (t + 1 + i) = weightAt h ep (t + i) := by
    intro i; unfold weightAt; rw [show t + 1 + i = t + i + 1 by omega, List.getElem?_cons_succ]
  have h3 : ∀ i, diffAt h (x :: ep) (t + 1 + i) = diffAt h ep (t + i) := by
    intro i; unfold diffAt; rw [show t + 1 + i = t + i + 1 by omega, List.getElem?_cons_succ]
  unfold formula
  have h0 := h1 0
  simp only [Nat.add_zero] at h0
  simp only [h0, h1, h2, h3]

theorem targets_tail (h : Hyper K) (x : Datum K) (ep : List (Datum K)) : targets h (x :: ep) = first (targets h (x :: ep)) :: targets h ep := by
  apply List.ext_getElem?
  intro t
  cases t with
  | zero =>
    rw [List.getElem?_cons_zero, ← List.head?_eq_getElem?]
    have hl := targets_length h (x :: ep)
    generalize targets h (x :: ep) = l at hl ⊢
    rcases l with _ | ⟨v, vs⟩
    · simp at hl
    · rfl
  | succ t =>
    rw [List.getElem?_cons_succ]
    by_cases ht : t < ep.length
    · have e1 := C201_closed h (x :: ep) (t + 1) (ep.length - 1 - t) (by simp; omega)
      have e2 := C201_closed h ep t (ep.length - 1 - t) (by omega)
      rw [formula_cons] at e1
      exact e1.trans e2.symm
    · rw [List.getElem?_eq_none (by rw [targets_length]; simp; omega), List.getElem?_eq_none (by rw [targets_length]; omega)]

theorem first_targets_single (h : Hyper K) (x : Datum K) : first (targets h [x]) = 0 := rfl

omit [LinearOrder K] in
theorem first_eq (l : List K) : first l = (l[0]?).getD 0 := by cases l <;> rfl

theorem first_targets (h : Hyper K) (x y : Datum K) (ep : List (Datum K)) :
    first (targets h (x :: y :: ep)) = x.value + deltaOf h x + h.discount * cOf h x * (first (targets h (y :: ep)) - y.value) := by
  have e1 := C201_closed h (x :: y :: ep) 0 (ep.length + 1) (by simp)
  have e2 := C201_closed h (y :: ep) 0 ep.length (by simp)
  rw [formula_succ, formula_cons] at e1
  rw [first_eq, first_eq]
  unfold targets
  rw [e1, e2]
  rfl

variable [Fintype A] [Fintype Ω]

/-- Numbers that are computed for every step from the rest of the episode, averaged with weights that depend on the past and the state. -/
theorem avg_weighted_state (e : Env K S A Ω) (pi : S → A → K) (rank : S → Nat) (hr : Ending e rank)
    (F G : List (A × Tr K S) → List K) (hf hg : List (A × Tr K S) → K)
    (hF : ∀ x l, F (x :: l) = hf (x :: l) :: F l) (hG : ∀ x l, G (x :: l) = hg (x :: l) :: G l)
    (hB : ∀ n s, rank s < n → avg e pi n s hf = avg e pi n s hg) (n : Nat) (s : S) (hn : rank s < n)
    (w : List (A × Tr K S) → S → K) :
    avg e pi n s (fun ep => weighted (fun p s _ => w p s) ep (F ep)) = avg e pi n s (fun ep => weighted (fun p s _ => w p s) ep (G ep)) := by
  induction n generalizing s w with
  | zero => omega
  | succ n ih =>
    have split : ∀ (F : List (A × Tr K S) → List K) (h : List (A × Tr K S) → K), (∀ x l, F (x :: l) = h (x :: l) :: F l) →
        avg e pi (n + 1) s (fun ep => weighted (fun p s _ => w p s) ep (F ep)) =
          w [] s * avg e pi (n + 1) s h + ∑ a, pi s a * ∑ o, e.prob s a o * (if e.term s a o = true then 0
            else avg e pi n (e.next s a o) fun l => weighted (fun p s' _ => w ((a, e.tr s a o) :: p) s') l (F l)) := by
      intro F h hF
      rw [avg_succ, avg_succ, Finset.mul_sum, ← Finset.sum_add_distrib]
      refine Finset.sum_congr rfl fun a _ => ?_
      rw [mul_left_comm, ← mul_add]
      refine congrArg (pi s a * ·) ?_
      unfold stepAvg
      rw [Finset.mul_sum, ← Finset.sum_add_distrib]
      refine Finset.sum_congr rfl fun o _ => ?_
      rw [mul_left_comm, ← mul_add]
      refine congrArg (e.prob s a o * ·) ?_
      by_cases ht : e.term s a o = true
      · rw [if_pos ht, if_pos ht, if_pos ht]
        simp [hF, weighted, Env.tr]
      · rw [if_neg ht, if_neg ht, if_neg ht, ← avg_mul, ← avg_add]
        refine avg_congr _ _ _ _ _ _ fun l _ => ?_
        simp only [hF, weighted, Env.tr]
    rw [split F hf hF, split G hg hG, hB _ _ hn]
    refine congrArg (w [] s * avg e pi (n + 1) s hg + ·) ?_
    refine Finset.sum_congr rfl fun a _ => congrArg (pi s a * ·) (Finset.sum_congr rfl fun o _ => congrArg (e.prob s a o * ·) ?_)
    by_cases ht : e.term s a o = true
    · rw [if_pos ht, if_pos ht]
    · rw [if_neg ht, if_neg ht]
      exact ih _ (by have := hr s a o (by simpa using ht); omega) _

end Machin.Impala
