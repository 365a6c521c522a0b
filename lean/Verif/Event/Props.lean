import Verif.Event.Model
import Mathlib.Data.List.Induction

/-! # C39: waiting for composite events -/

namespace Machin.Event

/-! ### Helper lemmas -/

theorem put_same {B : Type} (f : Nat → B) (i : Nat) (b : B) : put f i b i = b := by simp [put]

theorem put_ne {B : Type} (f : Nat → B) (i j : Nat) (b : B) (h : j ≠ i) : put f i b j = f j := by simp [put, h]

theorem foldl_register (is : List Nat) (id : Nat) (parents : Nat → List Nat) (i p : Nat) :
    p ∈ is.foldl (fun ps j => register ps j id) parents i ↔ (p = id ∧ i ∈ is) ∨ p ∈ parents i := by
  induction is generalizing parents with
  | nil => simp
  | cons j is ih =>
    rw [List.foldl_cons, ih]
    unfold register
    by_cases hij : i = j
    · subst hij
      rw [put_same, List.mem_append, List.mem_singleton, List.mem_cons]
      tauto
    · rw [put_ne _ _ _ _ hij, List.mem_cons]
      tauto

/-! ### The property and its failures -/

/-- The whole property, for `wait()` without a timeout, whatever the interleaving: it only returns `True`, and when the event
is already set the waiter comes back by its own steps. -/
def C39_full : Prop :=
  ∀ (e : Ev) (steps : List Step),
    (∀ r, (run e init steps).waiter = .returned r → r = true) ∧
    ((run e init steps).waiter = .outside → isSet (run e init steps).flags e = true →
      ∃ n, (run e init (steps ++ .begin :: List.replicate n .read)).waiter = .returned true)

/-- False: `set` of a member notifies before it stores the flag, so that the waiter can read the old value. -/
theorem C39_violated_early : (run (.multi false [.leaf 0, .leaf 1]) init [.begin, .notify 0, .read, .store 0]).waiter =
    .returned false := by decide

/-- False: waiting for all events returns after the first one. -/
theorem C39_violated_and :
    (run (.multi true [.leaf 0, .leaf 1]) init [.begin, .notify 0, .store 0, .read]).waiter = .returned false := by decide

/-- False: when the event is already set, the waiter blocks until a member is set once more. -/
theorem C39_violated_blocks (n : Nat) :
    isSet (run (.multi false [.leaf 0]) init [.notify 0, .store 0]).flags (.multi false [.leaf 0]) = true ∧
    (run (.multi false [.leaf 0]) init ([.notify 0, .store 0] ++ .begin :: List.replicate n .read)).waiter = .waiting := by
  refine ⟨by decide, ?_⟩
  have key : ∀ (e : Ev) (s : State) (n : Nat), s.waiter = .waiting → (run e s (List.replicate n .read)).waiter = .waiting := by
    intro e s n
    induction n generalizing s with
    | zero => intro h; exact h
    | succ n ih =>
      intro h
      unfold run at *
      rw [List.replicate_succ, List.foldl_cons]
      apply ih
      simp [step, h]
  have := key (.multi false [.leaf 0]) (run (.multi false [.leaf 0]) init [.notify 0, .store 0, .begin]) n (by decide)
  simpa [run] using this

theorem C39_violated : ¬ C39_full := by
  intro h
  have := (h _ _).1 _ C39_violated_early
  cases this

/-- With a timeout: the loop is never left before the timeout is over, even when the event is set and the waiter notified
earlier. -/
theorem C39_violated_timeout (timeout beginT : Int) (wakeups : List Int) (t : Int) (h : waitLoop timeout beginT wakeups = some t) :
    beginT + timeout ≤ t := by
  induction wakeups with
  | nil => cases h
  | cons now rest ih =>
    unfold waitLoop at h
    split at h
    · cases h; omega
    · exact ih h

/-- Exactly: the loop is left at the first wake-up that is not before the end of the timeout, also when it is at that very moment. -/
theorem C39_timeout_partial (timeout beginT : Int) (early rest : List Int) (now : Int) (he : ∀ t ∈ early, t < beginT + timeout)
    (hn : beginT + timeout ≤ now) : waitLoop timeout beginT (early ++ now :: rest) = some now := by
  induction early with
  | nil => simp only [List.nil_append, waitLoop]; rw [if_pos (by omega)]
  | cons t early ih =>
    have := he t (by simp)
    simp only [List.cons_append, waitLoop]
    rw [if_neg (by omega), ih fun t h => he t (by simp [h])]

example : waitLoop 10 100 ([101, 109] ++ 110 :: [119]) = some 110 := by decide

example : waitLoop 10 100 [101, 109, 119] = some 119 := by decide

/-! ### What holds -/

/-- `wait()` does not return before a member (at any depth) is set by a call that starts after the wait started. -/
theorem C39_not_before_partial (e : Ev) (steps : List Step) (r : Bool) (h : (run e init steps).waiter = .returned r) :
    ∃ pre i post, steps = pre ++ .notify i :: post ∧ (run e init pre).waiter = .waiting ∧ i ∈ leaves e := by
  have key : ∀ steps, ((run e init steps).waiter = .woken ∨ ∃ r, (run e init steps).waiter = .returned r) →
      ∃ pre i post, steps = pre ++ .notify i :: post ∧ (run e init pre).waiter = .waiting ∧ i ∈ leaves e := by
    intro steps
    induction steps using List.reverseRecOn with
    | nil => intro h; rcases h with h | ⟨r, h⟩ <;> cases h
    | append_singleton steps st ih =>
      intro h
      have e1 : run e init (steps ++ [st]) = step e (run e init steps) st := by simp [run]
      rw [e1] at h
      have ext : ((run e init steps).waiter = .woken ∨ ∃ r, (run e init steps).waiter = .returned r) →
          ∃ pre i post, steps ++ [st] = pre ++ .notify i :: post ∧ (run e init pre).waiter = .waiting ∧ i ∈ leaves e := by
        intro h
        rcases ih h with ⟨pre, i, post, he, hw, hi⟩
        exact ⟨pre, i, post ++ [st], by rw [he]; simp, hw, hi⟩
      cases st with
      | notify i =>
        by_cases hw : (run e init steps).waiter = .waiting ∧ i ∈ leaves e
        · exact ⟨steps, i, [], rfl, hw.1, hw.2⟩
        · apply ext
          simp only [step, if_neg hw] at h
          exact h
      | store i =>
        apply ext
        simp only [step] at h
        split at h <;> exact h
      | clear i => exact ext h
      | begin =>
        apply ext
        simp only [step] at h
        split at h
        · rcases h with h | ⟨r, h⟩ <;> cases h
        · exact h
      | read =>
        apply ext
        simp only [step] at h
        split at h
        · rename_i hw; exact Or.inl hw
        · exact h
  exact key steps (Or.inr ⟨r, h⟩)

/-- When a `set` call of a member completes before the woken waiter looks, the waiter returns the value of the composite event
with this member set. -/
theorem C39_returns_partial (e : Ev) (s : State) (i : Nat) (hw : s.waiter = .waiting) (hi : i ∈ leaves e) :
    (run e s [.notify i, .store i, .read]).waiter = .returned (isSet (put s.flags i true) e) := by
  simp [run, step, hw, hi, put_same]

/-- For `OrEvent` over plain events this is `True`. -/
theorem C39_or_partial (is : List Nat) (s : State) (i : Nat) (hw : s.waiter = .waiting) (hi : i ∈ is) :
    (run (.multi false (is.map .leaf)) s [.notify i, .store i, .read]).waiter = .returned true := by
  have hl : ∀ is : List Nat, leavesOf (is.map .leaf) = is := by
    intro is
    induction is with
    | nil => rfl
    | cons j is ih => simp [leavesOf, leaves, ih]
  have ha : ∀ is : List Nat, i ∈ is → anySet (put s.flags i true) (is.map .leaf) = true := by
    intro is
    induction is with
    | nil => intro h; cases h
    | cons j is ih =>
      intro h
      rw [List.map_cons, anySet]
      by_cases hij : i = j
      · subst hij; simp [isSet, put_same]
      · rw [ih (by rcases List.mem_cons.mp h with q | q; exact absurd q hij; exact q), Bool.or_true]
  rw [C39_returns_partial _ s i hw (by rw [leaves, hl]; exact hi), isSet, ha is hi]

/-- For `AndEvent` over plain events it is `True` exactly if all other members are set at this moment. -/
theorem C39_and_partial (is : List Nat) (s : State) (i : Nat) (hw : s.waiter = .waiting) (hi : i ∈ is) :
    (run (.multi true (is.map .leaf)) s [.notify i, .store i, .read]).waiter = .returned true ↔
      ∀ j ∈ is, j ≠ i → s.flags j = true := by
  have hl : ∀ is : List Nat, leavesOf (is.map .leaf) = is := by
    intro is
    induction is with
    | nil => rfl
    | cons j is ih => simp [leavesOf, leaves, ih]
  have ha : ∀ is : List Nat, allSet (put s.flags i true) (is.map .leaf) = true ↔ ∀ j ∈ is, j ≠ i → s.flags j = true := by
    intro is
    induction is with
    | nil => simp [allSet]
    | cons j is ih =>
      rw [List.map_cons, allSet, Bool.and_eq_true, ih, List.forall_mem_cons, isSet]
      by_cases hij : j = i
      · subst hij; simp [put_same]
      · rw [put_ne _ _ _ _ hij]; simp [hij]
  rw [C39_returns_partial _ s i hw (by rw [leaves, hl]; exact hi), isSet, Phase.returned.injEq, ha is]

/-- A `set` of a leaf notifies exactly the composite events that contain it, at any depth. -/
theorem C39_registered (parents : Nat → List Nat) (id : Nat) (e : Ev) (i p : Nat) :
    p ∈ construct parents id e i ↔ (p = id ∧ i ∈ leaves e) ∨ p ∈ parents i :=
  foldl_register (leaves e) id parents i p

example : (run (.multi false [.leaf 0, .multi true [.leaf 1, .leaf 2]]) init
    [.notify 1, .store 1, .begin, .notify 2, .store 2, .read]).waiter = .returned true := by decide

example : construct (construct (fun _ => []) 7 (.multi false [.leaf 0, .leaf 1])) 8
    (.multi true [.leaf 2, .multi false [.leaf 0, .leaf 1]]) 0 = [7, 8] := by decide

end Machin.Event
