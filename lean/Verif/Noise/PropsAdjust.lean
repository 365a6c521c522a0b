import Verif.Noise.ModelAdjust
import Mathlib.Tactic.Common
import Mathlib.Algebra.Field.Rat

/-! # The adjustment of parameter noise (C158) -/

namespace Machin.Noise

variable {K Y : Type} [Field K] [LinearOrder K]

/-- Pairs of neighbouring passes of different kinds, from the left, no pass being used twice; the noisy output comes first. -/
def meets : List (Bool × Y) → List (Y × Y)
  | (a, x) :: (b, y) :: l => if a = b then meets ((b, y) :: l) else (if a then (x, y) else (y, x)) :: meets l
  | _ => []
  termination_by l => l.length

/-- C158, full statement: the noise is adapted to the distance of the outputs of the noisy and of the original model for the same input. `Y` is the type of
pairs of an input and the output. -/
def C158_full : Prop :=
  ∀ (dist : Nat × ℚ → Nat × ℚ → ℚ) (initial desired coeff : ℚ) (calls : List (Bool × (Nat × ℚ))),
    ∀ p ∈ ((Watch.start initial desired coeff).run dist calls).2.1, p.1.1 = p.2.1

theorem adjust_idle (dist : Y → Y → K) (s : Adaptive K) (on : Bool) (y : Y) :
    Watch.adjust dist ⟨none, none, s⟩ on y = (⟨if on then some y else none, if on then none else some y, s⟩, none) := by
  cases on <;> rfl

theorem adjust_same (dist : Y → Y → K) (s : Adaptive K) (on : Bool) (x y : Y) :
    Watch.adjust dist ⟨if on then some x else none, if on then none else some x, s⟩ on y =
      (⟨if on then some y else none, if on then none else some y, s⟩, none) := by
  cases on <;> rfl

theorem adjust_other (dist : Y → Y → K) (s : Adaptive K) (on : Bool) (x y : Y) :
    Watch.adjust dist ⟨if on then some x else none, if on then none else some x, s⟩ (!on) y =
      (⟨none, none, s.adapt (if on then dist x y else dist y x)⟩, some (if on then (x, y) else (y, x))) := by
  cases on <;> rfl

theorem run_meets (dist : Y → Y → K) : ∀ (n : Nat) (l : List (Bool × Y)), l.length ≤ n → ∀ s : Adaptive K,
    ((Watch.run dist ⟨none, none, s⟩ l).2.1 = meets l ∧
      (Watch.run dist ⟨none, none, s⟩ l).1.spec = ((meets l).map fun p => dist p.1 p.2).foldl Adaptive.adapt s) ∧
    ∀ (on : Bool) (x : Y), (Watch.run dist ⟨if on then some x else none, if on then none else some x, s⟩ l).2.1 = meets ((on, x) :: l) ∧
      (Watch.run dist ⟨if on then some x else none, if on then none else some x, s⟩ l).1.spec =
        ((meets ((on, x) :: l)).map fun p => dist p.1 p.2).foldl Adaptive.adapt s := by
  intro n
  induction n with
  | zero =>
    intro l hl s
    have : l = [] := List.length_eq_zero_iff.1 (by omega)
    subst this
    simp [Watch.run, meets]
  | succ n ih =>
    intro l hl s
    cases l with
    | nil => simp [Watch.run, meets]
    | cons c l =>
      obtain ⟨b, y⟩ := c
      simp only [List.length_cons] at hl
      have hl' : l.length ≤ n := by omega
      refine ⟨?_, fun on x => ?_⟩
      · simp only [Watch.run, adjust_idle, Option.toList, List.nil_append]
        exact (ih l hl' s).2 b y
      · by_cases h : on = b
        · subst h
          simp only [Watch.run, adjust_same, Option.toList, List.nil_append]
          rw [meets, if_pos rfl]
          exact (ih l hl' s).2 on y
        · have hb : b = !on := by cases on <;> cases b <;> simp_all
          subst hb
          simp only [Watch.run, adjust_other, Option.toList, List.singleton_append]
          rw [meets, if_neg h]
          have := (ih l hl' (s.adapt (if on then dist x y else dist y x))).1
          refine ⟨by rw [this.1], ?_⟩
          rw [this.2]
          cases on <;> rfl

/-- C158, what holds exactly: compared are neighbouring passes of different kinds, each pass at most once, the noisy output first; the deviation is adapted
once for each such pair, and every pass meets the deviation adapted to the pairs before it. That both outputs belong to one input is missing. -/
theorem C158_pairs_partial (dist : Y → Y → K) (initial desired coeff : K) (calls : List (Bool × Y)) :
    ((Watch.start initial desired coeff).run dist calls).2.1 = meets calls ∧
    ((Watch.start initial desired coeff).run dist calls).1.spec =
      ((meets calls).map fun p => dist p.1 p.2).foldl Adaptive.adapt ⟨initial, desired, coeff, initial⟩ :=
  (run_meets dist _ calls (Nat.le_refl _) _).1

theorem run_devs (dist : Y → Y → K) : ∀ (l : List (Bool × Y)) (w : Watch K Y) (i : Nat), i < l.length →
    (Watch.run dist w l).2.2[i]? = some (Watch.run dist w (l.take i)).1.spec.current
  | c :: l, w, 0, _ => by simp [Watch.run]
  | c :: l, w, i + 1, h => by
    simp only [Watch.run, List.getElem?_cons_succ, List.take_succ_cons]
    exact run_devs dist l _ i (by simpa using h)

/-- C158, the deviation that pass number `i` meets. -/
theorem C158_deviation_partial (dist : Y → Y → K) (initial desired coeff : K) (calls : List (Bool × Y)) (i : Nat) (hi : i < calls.length) :
    ((Watch.start initial desired coeff).run dist calls).2.2[i]? =
      some (((meets (calls.take i)).map fun p => dist p.1 p.2).foldl Adaptive.adapt ⟨initial, desired, coeff, initial⟩).current := by
  rw [run_devs dist calls _ i hi, (C158_pairs_partial dist initial desired coeff (calls.take i)).2]

theorem meets_adjacent : ∀ (n : Nat) (l : List (Bool × Y)), l.length ≤ n → ∀ p ∈ meets l, ∃ (i : Nat) (a : Bool) (x y : Y),
    l[i]? = some (a, x) ∧ l[i + 1]? = some (!a, y) ∧ p = if a then (x, y) else (y, x) := by
  intro n
  induction n with
  | zero => intro l hl p hp; have : l = [] := List.length_eq_zero_iff.1 (by omega); subst this; simp [meets] at hp
  | succ n ih =>
    intro l hl p hp
    match l, hl, hp with
    | [], _, hp => simp [meets] at hp
    | [_], _, hp => simp [meets] at hp
    | (a, x) :: (b, y) :: l, hl, hp =>
      rw [meets] at hp
      simp only [List.length_cons] at hl
      split at hp
      · obtain ⟨i, a', x', y', h1, h2, h3⟩ := ih ((b, y) :: l) (by simp only [List.length_cons]; omega) p hp
        exact ⟨i + 1, a', x', y', by simpa using h1, by simpa using h2, h3⟩
      · rename_i h
        rcases List.mem_cons.1 hp with rfl | hp
        · refine ⟨0, a, x, y, rfl, ?_, rfl⟩
          cases a <;> cases b <;> simp_all
        · obtain ⟨i, a', x', y', h1, h2, h3⟩ := ih l (by omega) p hp
          exact ⟨i + 2, a', x', y', by simpa using h1, by simpa using h2, h3⟩

/-- C158 for callers who pass the same input to neighbouring passes of different kinds. -/
theorem C158_same_partial {X : Type} (dist : X × Y → X × Y → K) (initial desired coeff : K) (calls : List (Bool × (X × Y)))
    (h : ∀ (i : Nat) (a : Bool) (x y : X × Y), calls[i]? = some (a, x) → calls[i + 1]? = some (!a, y) → x.1 = y.1) :
    ∀ p ∈ ((Watch.start initial desired coeff).run dist calls).2.1, p.1.1 = p.2.1 := by
  rw [(C158_pairs_partial dist initial desired coeff calls).1]
  intro p hp
  obtain ⟨i, a, x, y, h1, h2, rfl⟩ := meets_adjacent _ calls (Nat.le_refl _) p hp
  have := h i a x y h1 h2
  cases a
  · exact this.symm
  · exact this

/-- C158 does not hold: a noisy pass for input 1, then a pass without noise for input 2. -/
theorem C158_violated : ¬ C158_full := by
  intro h
  have := h (fun a b => a.2 - b.2) 1 1 2 [(true, (1, 5)), (false, (2, 5))]
  rw [(C158_pairs_partial _ _ _ _ _).1] at this
  simp [meets] at this

/-- The noise of a parameter follows the deviation. -/
theorem C158_noise_partial (w : Watch K Y) (draw : K) (f : K → K) :
    w.noise none draw = draw * w.spec.current ∧ w.noise (some f) draw = f w.spec.current := ⟨rfl, rfl⟩

/-- Two noisy passes, then one without noise, then a pair the other way round. -/
example : ((Watch.start (1 : ℚ) 1 2).run (fun a b : ℚ => a - b) [(true, 9), (true, 5), (false, 1), (false, 2), (true, 2)]).2 =
    ([(5, 1), (2, 2)], [1, 1, 1, 1 / 2, 1 / 2]) := by decide +kernel

end Machin.Noise
