import Verif.Helper.Model
import Mathlib.Data.List.Induction
import Mathlib.Tactic.Common
import Mathlib.Tactic.Ring

/-! # Properties of helpers: C45, C70, C71 -/

namespace Machin.Helper

/-! ### C45: learning rates -/

/-- Specification: the rate of the last row whose boundary is at most `step`. -/
def rateAt (map : List (Int × Rat)) (step : Int) : Option Rat := ((map.filter (fun r => r.1 ≤ step)).getLast?).map (·.2)

/-- Boundaries in order. -/
def SortedMap (map : List (Int × Rat)) : Prop := map.Pairwise (fun a b => a.1 ≤ b.1)

/-- The whole property: for every ordered map and every step the specified rate. -/
def C45_full : Prop := ∀ map step, SortedMap map → lrFunc map step = rateAt map step

/-- Before the first boundary the *last* rate is returned. -/
theorem C45_violated_before (map : List (Int × Rat)) (step : Int) (h : ∀ r ∈ map, step < r.1) :
    lrFunc map step = map.getLast?.map (·.2) := by
  have key : ∀ map : List (Int × Rat), (∀ r ∈ map, step < r.1) → lrLoop step map = none := by
    intro map
    induction map with
    | nil => intro _; rfl
    | cons a rest ih =>
      intro h
      cases rest with
      | nil => rfl
      | cons b rest =>
        unfold lrLoop
        have := h a (by simp)
        rw [if_neg (by omega)]
        exact ih (fun r hr => h r (List.mem_cons_of_mem _ hr))
  unfold lrFunc
  rw [key map h]

theorem C45_violated : ¬ C45_full := by
  intro h
  have := h [(10, 1), (20, 2)] 5 (by simp [SortedMap])
  revert this
  decide +kernel

/-- From the first boundary on the specified rate is returned. -/
theorem C45_rate_partial (map : List (Int × Rat)) (step : Int) (hs : SortedMap map) (h : ∃ r, map.head? = some r ∧ r.1 ≤ step) :
    lrFunc map step = rateAt map step := by
  induction map with
  | nil => rcases h with ⟨r, hr, _⟩; cases hr
  | cons a rest ih =>
    rcases h with ⟨r, hr, hle⟩
    rw [List.head?_cons, Option.some.injEq] at hr
    subst hr
    have hs' : (∀ b ∈ rest, a.1 ≤ b.1) ∧ SortedMap rest := by simpa [SortedMap] using hs
    cases rest with
    | nil => simp [lrFunc, lrLoop, rateAt, hle]
    | cons b rest =>
      by_cases hb : b.1 ≤ step
      · have := ih hs'.2 ⟨b, rfl, hb⟩
        unfold lrFunc at this ⊢
        unfold lrLoop
        rw [if_neg (by omega)]
        have e1 : rateAt (a :: b :: rest) step = rateAt (b :: rest) step := by
          unfold rateAt
          simp [hle, hb]
        have e2 : (a :: b :: rest).getLast? = (b :: rest).getLast? := by simp
        rw [e1, e2]
        exact this
      · have hall : ∀ c ∈ b :: rest, ¬ c.1 ≤ step := by
          intro c hc
          rcases List.mem_cons.mp hc with q | q
          · rw [q]; exact hb
          · have : (∀ b' ∈ rest, b.1 ≤ b'.1) ∧ SortedMap rest := by simpa [SortedMap] using hs'.2
            have := this.1 c q
            omega
        have e1 : rateAt (a :: b :: rest) step = some a.2 := by
          unfold rateAt
          have : (b :: rest).filter (fun r => decide (r.1 ≤ step)) = [] := by
            rw [List.filter_eq_nil_iff]
            intro c hc
            simpa using hall c hc
          rw [List.filter_cons_of_pos (by simpa using hle), this]
          rfl
        unfold lrFunc lrLoop
        rw [if_pos ⟨hle, by omega⟩, e1]

example : SortedMap [(0, 1 / 1000), (200000, 3 / 10000)] ∧ lrFunc [(0, 1 / 1000), (200000, 3 / 10000)] 199999 = some (1 / 1000) ∧
    lrFunc [(0, 1 / 1000), (200000, 3 / 10000)] 200000 = some (3 / 10000) := by
  refine ⟨by simp [SortedMap], by decide +kernel, by decide +kernel⟩

/-! ### C70: counters -/

/-- The number of `count` calls after the last `reset`. -/
def sinceReset : List CounterOp → Nat := fun ops => ops.foldl (fun n op => match op with | .count => n + 1 | .reset => 0) 0

/-- The counter is the start plus the step times the number of `count` calls since the last reset. -/
theorem C70_counter (start step : Int) (ops : List CounterOp) :
    (ops.foldl Counter.apply (Counter.new start step)).count = start + step * sinceReset ops := by
  have key : (ops.foldl Counter.apply (Counter.new start step)) = ⟨start + step * sinceReset ops, start, step⟩ := by
    induction ops using List.reverseRecOn with
    | nil => simp [Counter.new, sinceReset]
    | append_singleton ops op ih =>
      rw [List.foldl_append, ih]
      cases op with
      | count =>
        have : sinceReset (ops ++ [.count]) = sinceReset ops + 1 := by simp [sinceReset]
        rw [this]
        simp only [List.foldl_cons, List.foldl_nil, Counter.apply, Counter.forward, Counter.mk.injEq, and_true]
        push_cast
        ring
      | reset =>
        have : sinceReset (ops ++ [.reset]) = 0 := by simp [sinceReset]
        rw [this]
        simp [Counter.apply, Counter.reset]
  rw [key]

example : ([.count, .count, .reset, .count].foldl Counter.apply (Counter.new 5 3)).count = 8 := by decide

/-! ### C71: triggers -/

/-- Specification: `get` is true exactly if the trigger was switched on (an odd number of flips counts) since the last `get`. -/
def lastState : List SwitchOp → Bool → Bool
  | [], s => s
  | .flip :: ops, s => lastState ops (!s)
  | .on :: ops, _ => lastState ops true
  | .off :: ops, _ => lastState ops false
  | .get :: ops, _ => lastState ops false

/-- A `get` after any operations answers the state reached since the last `get`. -/
theorem C71_trigger (s : Bool) (ops : List SwitchOp) :
    triggerRun s (ops ++ [.get]) = triggerRun s ops ++ [lastState ops s] := by
  induction ops generalizing s with
  | nil => cases s <;> rfl
  | cons op ops ih =>
    cases op with
    | get => cases s <;> simp [triggerRun, triggerStep, lastState, ih]
    | flip => simp [triggerRun, triggerStep, switchStep, lastState, ih]
    | on => simp [triggerRun, triggerStep, switchStep, lastState, ih]
    | off => simp [triggerRun, triggerStep, switchStep, lastState, ih]

/-- One `on` is seen by exactly one `get`. -/
theorem C71_once (s : Bool) (n : Nat) : triggerRun s (.on :: .get :: List.replicate n .get) = true :: List.replicate n false := by
  have key : triggerRun false (List.replicate n .get) = List.replicate n false := by
    induction n with
    | zero => rfl
    | succ n ih => simp [List.replicate_succ, triggerRun, triggerStep, ih]
  simp [triggerRun, triggerStep, switchStep, key]

example : triggerRun false [.get, .on, .get, .get, .flip, .get] = [false, true, false, true] := by decide

end Machin.Helper
