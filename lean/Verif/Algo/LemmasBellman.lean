import Verif.Algo.LemmasValue
import Mathlib.Algebra.Order.Archimedean.Basic
import Mathlib.Data.Rat.Floor

/-! # Helper lemmas on tables that fit the targets of DQN -/

namespace Machin.Algo

variable {S : Type}

/-- Two rows of the same width whose entries differ by at most `ε`. -/
def Close (ε : ℚ) (r r' : List ℚ) : Prop :=
  r.length = r'.length ∧ ∀ (i : Nat) (x x' : ℚ), r[i]? = some x → r'[i]? = some x' → |x - x'| ≤ ε

/-- The loss of `update` is 0 on the batch: every action value is equal to its target. -/
def Fits (mode : Mode) (g : ℚ) (q qT : S → List ℚ) (batch : List (Tr S Nat)) : Prop :=
  ∃ ps, dqnPairs mode g q qT batch = .ok ps ∧ ∀ p ∈ ps, p.1 = p.2

theorem gather_ok {row : List ℚ} {i : Nat} {v : ℚ} (h : gather row i = .ok v) : row[i]? = some v := by
  unfold gather at h
  cases hr : row[i]? with
  | none => simp [hr] at h
  | some w => simp only [hr, Except.ok.injEq] at h; rw [h]

theorem fits_row {mode : Mode} {g : ℚ} {q qT : S → List ℚ} {batch : List (Tr S Nat)} (h : Fits mode g q qT batch) {tr : Tr S Nat}
    (ht : tr ∈ batch) :
    ∃ v, nextQ mode q qT tr.next = .ok v ∧ (q tr.state)[tr.action]? = some (rewardFunction tr.reward g v tr.terminal) := by
  obtain ⟨ps, hps, heq⟩ := h
  unfold dqnPairs at hps
  cases ha : mapE (fun tr => gather (qCriticize q qT tr.state false) tr.action) batch with
  | error e => simp [ha] at hps
  | ok avs =>
    cases hv : mapE (fun tr => nextQ mode q qT tr.next) batch with
    | error e => simp [ha, hv] at hps
    | ok vs =>
      simp only [ha, hv, Except.ok.injEq] at hps
      obtain ⟨l1, s1⟩ := mapE_ok ha
      obtain ⟨l2, s2⟩ := mapE_ok hv
      obtain ⟨i, hi, rfl⟩ := List.mem_iff_getElem.1 ht
      have hb : batch[i]? = some batch[i] := List.getElem?_eq_getElem hi
      have e1 : avs[i]? = some (avs[i]'(by omega)) := List.getElem?_eq_getElem _
      have e2 : vs[i]? = some (vs[i]'(by omega)) := List.getElem?_eq_getElem _
      have g1 := s1 i _ _ hb e1
      have g2 := s2 i _ _ hb e2
      refine ⟨_, g2, ?_⟩
      have hz : (avs[i]'(by omega), rewardFunction batch[i].reward g (vs[i]'(by omega)) batch[i].terminal) ∈ ps := by
        rw [← hps]
        apply List.mem_iff_getElem?.2
        refine ⟨i, ?_⟩
        rw [List.getElem?_zip_eq_some, List.getElem?_map]
        refine ⟨e1, ?_⟩
        rw [List.getElem?_eq_getElem (by simp; omega), List.getElem_zip]
        rfl
      have := heq _ hz
      simp only at this
      rw [← this]
      exact gather_ok g1

theorem nextQ_fixed {q qT : S → List ℚ} {s : S} {v : ℚ} (h : nextQ .fixedTarget q qT s = .ok v) : ∃ i, rowMax (qT s) = .ok (v, i) := by
  simp only [nextQ, qCriticize, if_true] at h
  cases hr : rowMax (qT s) with
  | error e => simp [hr] at h
  | ok p => obtain ⟨w, i⟩ := p; simp only [hr, Except.ok.injEq] at h; exact ⟨i, by rw [h]⟩

theorem nextQ_same {mode : Mode} {q : S → List ℚ} {s : S} {v : ℚ} (h : nextQ mode q q s = .ok v) : ∃ i, rowMax (q s) = .ok (v, i) := by
  cases mode with
  | vanilla =>
    simp only [nextQ, qCriticize] at h
    cases hr : rowMax (q s) with
    | error e => simp [hr] at h
    | ok p => obtain ⟨w, i⟩ := p; simp [hr] at h; exact ⟨i, by rw [h]⟩
  | fixedTarget => exact nextQ_fixed h
  | double =>
    simp only [nextQ, qActDiscrete, qCriticize] at h
    cases hr : rowMax (q s) with
    | error e => simp [hr] at h
    | ok p =>
      obtain ⟨w, i⟩ := p
      simp [hr] at h
      have h1 := gather_ok h
      have h2 := (rowMax_spec hr).1
      rw [h1] at h2
      exact ⟨i, by rw [Option.some.inj h2]⟩

theorem rowMax_close {ε : ℚ} {r r' : List ℚ} (h : Close ε r r') {v v' : ℚ} {i i' : Nat} (h1 : rowMax r = .ok (v, i))
    (h2 : rowMax r' = .ok (v', i')) : |v - v'| ≤ ε := by
  obtain ⟨a1, a2, _⟩ := rowMax_spec h1
  obtain ⟨b1, b2, _⟩ := rowMax_spec h2
  have hi : i < r.length := (List.getElem?_eq_some_iff.1 a1).1
  have hi' : i' < r'.length := (List.getElem?_eq_some_iff.1 b1).1
  have c1 : r'[i]? = some (r'[i]'(by rw [← h.1]; exact hi)) := List.getElem?_eq_getElem _
  have c2 : r[i']? = some (r[i']'(by rw [h.1]; exact hi')) := List.getElem?_eq_getElem _
  have d1 := abs_le.1 (h.2 i _ _ a1 c1)
  have d2 := abs_le.1 (h.2 i' _ _ c2 b1)
  have f1 := b2 _ (List.mem_of_getElem? c1)
  have f2 := a2 _ (List.mem_of_getElem? c2)
  rw [abs_le]
  constructor <;> linarith

theorem rewardFunction_close (r g v v' ε : ℚ) (b : Bool) (he : 0 ≤ ε) (h : b = false → |v - v'| ≤ ε) :
    |rewardFunction r g v b - rewardFunction r g v' b| ≤ |g| * ε := by
  cases b with
  | true =>
    simp only [rewardFunction, if_true, mul_zero, zero_mul, sub_self, abs_zero]
    exact mul_nonneg (abs_nonneg _) he
  | false =>
    have : rewardFunction r g v false - rewardFunction r g v' false = g * (v - v') := by
      simp [rewardFunction]; ring
    rw [this, abs_mul]
    exact mul_le_mul_of_nonneg_left (h rfl) (abs_nonneg _)

theorem Close.mono {ε ε' : ℚ} {r r' : List ℚ} (h : Close ε r r') (hle : ε ≤ ε') : Close ε' r r' :=
  ⟨h.1, fun i x x' a b => le_trans (h.2 i x x' a b) hle⟩

theorem abs_le_sum : ∀ (r : List ℚ), ∃ b, 0 ≤ b ∧ ∀ x ∈ r, |x| ≤ b
  | [] => ⟨0, le_refl _, by simp⟩
  | y :: ys => by
    obtain ⟨b, hb, h⟩ := abs_le_sum ys
    refine ⟨b + |y|, add_nonneg hb (abs_nonneg _), ?_⟩
    intro x hx
    rcases List.mem_cons.1 hx with rfl | hx
    · linarith
    · have := h x hx; have := abs_nonneg y; linarith

theorem exists_close (r r' : List ℚ) (hl : r.length = r'.length) : ∃ ε, 0 ≤ ε ∧ Close ε r r' := by
  obtain ⟨b, hb, h⟩ := abs_le_sum r
  obtain ⟨b', hb', h'⟩ := abs_le_sum r'
  refine ⟨b + b', add_nonneg hb hb', hl, ?_⟩
  intro i x x' hx hx'
  have e1 := h x (List.mem_of_getElem? hx)
  have e2 := h' x' (List.mem_of_getElem? hx')
  have := abs_sub x x'
  linarith

theorem exists_close_all (T T' : S → List ℚ) (hl : ∀ s, (T s).length = (T' s).length) : ∀ (ss : List S),
    ∃ ε, 0 ≤ ε ∧ ∀ s ∈ ss, Close ε (T s) (T' s)
  | [] => ⟨0, le_refl _, by simp⟩
  | s :: ss => by
    obtain ⟨e1, h1, c1⟩ := exists_close (T s) (T' s) (hl s)
    obtain ⟨e2, h2, c2⟩ := exists_close_all T T' hl ss
    refine ⟨e1 + e2, add_nonneg h1 h2, ?_⟩
    intro x hx
    rcases List.mem_cons.1 hx with rfl | hx
    · exact c1.mono (by linarith)
    · exact (c2 x hx).mono (by linarith)

end Machin.Algo
