import Mathlib.Tactic.Linarith
import Mathlib.Tactic.Ring
import Verif.Proc.Model

/-!
# Properties of processes, threads and the spawn loop: C112, C113
-/

namespace Machin.Proc

/-! ## C112: failures of processes and threads are reported -/

/-- The specification: what has to be reported for a given outcome of target and cleaner. -/
def failures {E : Type} (target cleanerRaised : Option E) : List E := target.toList ++ cleanerRaised.toList

/-- Both exceptions are collected, that of the target first; a missing cleaner raises nothing. -/
theorem C112_collected_partial {E : Type} (target : Option E) (cleaner : Option (Option E)) :
    runExceptions target cleaner = failures target cleaner.join := by
  rcases target with _ | e <;> rcases cleaner with _ | _ | c <;> rfl

example : runExceptions (some "a") (some (some "b")) = ["a", "b"] := rfl
example : runExceptions none (some (some "b")) = ["b"] := rfl

/-- C112, full statement for processes: after the child has ended with failures, `watch` raises them, whatever the parent asked before. -/
def C112_full : Prop :=
  ∀ (E : Type) (fits : List E → Bool) (exc : List E) (ops : List Op), exc ≠ [] →
    (((Proc.fresh.finish fits exc).use ops).watch).1 = .raised exc

/-- Reading the property `exception` empties the pipe, so that `watch` is silent from then on. -/
theorem C112_violated_silent {E : Type} (fits : List E → Bool) (exc : List E) (h : exc ≠ []) (ops : List Op) :
    (((Proc.fresh.finish fits exc).use (.exception :: ops)).watch).1 = .quiet := by
  obtain ⟨e, es, rfl⟩ := List.exists_cons_of_ne_nil h
  suffices ∀ (p : Proc E), p.pipe = none → ((p.use ops).watch).1 = .quiet by
    apply this
    simp [Proc.fresh, Proc.finish, Proc.exception, Proc.recv]
  induction ops with
  | nil => intro p hp; simp [Proc.use, Proc.watch, hp]
  | cons o ops ih =>
    intro p hp
    cases o with
    | watch => exact ih _ (by simp [Proc.watch, hp])
    | exception =>
      apply ih
      unfold Proc.exception
      rw [hp]
      cases hc : p.cached <;> simp [hp]

/-- A second `watch` is silent too. -/
theorem C112_violated_second {E : Type} (fits : List E → Bool) (exc : List E) (h : exc ≠ []) (hf : fits exc = true) :
    (((Proc.fresh.finish fits exc).use [.watch]).watch).1 = .quiet := by
  obtain ⟨e, es, rfl⟩ := List.exists_cons_of_ne_nil h
  simp [Proc.fresh, Proc.finish, Proc.use, Proc.watch, Proc.exception, Proc.recv, hf]

/-- A message that does not fit into the buffer of the pipe makes `watch` wait for ever: the child waits for the parent to receive, the parent
waits in `join` for the child to end. -/
theorem C112_violated_deadlock {E : Type} (fits : List E → Bool) (exc : List E) (h : exc ≠ []) (hf : fits exc = false) :
    ((Proc.fresh.finish fits exc).watch) = (.hangs, Proc.fresh.finish fits exc) := by
  obtain ⟨e, es, rfl⟩ := List.exists_cons_of_ne_nil h
  simp [Proc.fresh, Proc.finish, Proc.watch, hf]

example : ((Proc.fresh.finish (fun l => l.length ≤ 1) ["a", "b"]).watch).1 = .hangs := by decide

/-- C112 is violated. -/
theorem C112_violated : ¬ C112_full := by
  intro h
  have := h Nat (fun _ => true) [0] [.exception] (by simp)
  rw [C112_violated_silent (fun _ => true) [0] (by simp) []] at this
  simp at this

/-- C112, what holds for processes: the first `watch` after the end raises all failures if the message fits; without failures nothing is
ever raised; before the end nothing is raised. -/
theorem C112_first_partial {E : Type} (fits : List E → Bool) (exc : List E) :
    (exc ≠ [] → fits exc = true → ((Proc.fresh.finish fits exc).watch).1 = .raised exc) ∧
    (exc = [] → ∀ ops, (((Proc.fresh.finish fits exc).use ops).watch).1 = .quiet) ∧
    (∀ ops, (((Proc.fresh : Proc E).use ops).watch).1 = .quiet) := by
  have key : ∀ (ops : List Op) (p : Proc E), p.pipe = none → ((p.use ops).watch).1 = .quiet := by
    intro ops
    induction ops with
    | nil => intro p hp; simp [Proc.use, Proc.watch, hp]
    | cons o ops ih =>
      intro p hp
      cases o with
      | watch => exact ih _ (by simp [Proc.watch, hp])
      | exception =>
        apply ih
        unfold Proc.exception
        rw [hp]
        cases hc : p.cached <;> simp [hp]
  refine ⟨?_, ?_, ?_⟩
  · intro h hf
    obtain ⟨e, es, rfl⟩ := List.exists_cons_of_ne_nil h
    simp [Proc.fresh, Proc.finish, Proc.watch, Proc.exception, hf]
  · rintro rfl ops
    exact key ops _ rfl
  · intro ops
    exact key ops _ rfl

/-- The property `exception` keeps its value: after a failure it is the list of all failures, however often it or `watch` was used before, also
when the message is long. -/
theorem C112_exception_partial {E : Type} (fits : List E → Bool) (exc : List E) (h : exc ≠ []) (ops : List Op) :
    (((Proc.fresh.finish fits exc).use ops).exception).1 = some exc := by
  obtain ⟨e, es, rfl⟩ := List.exists_cons_of_ne_nil h
  suffices ∀ (p : Proc E), (p.cached = some (e :: es) ∨ (p.cached = none ∧ p.pipe = some (e :: es))) →
      ((p.use ops).exception).1 = some (e :: es) by
    apply this
    right
    simp [Proc.fresh, Proc.finish]
  induction ops with
  | nil =>
    rintro p (hp | ⟨hc, hp⟩)
    · simp [Proc.use, Proc.exception, hp]
    · simp [Proc.use, Proc.exception, hp, hc]
  | cons o ops ih =>
    intro p hp
    cases o with
    | watch =>
      apply ih
      unfold Proc.watch
      split
      · exact hp
      · split
        · exact hp
        · rcases hp with hp | ⟨hc, hp⟩
          · left; simp [Proc.exception, hp]
          · left; simp [Proc.exception, hp, hc]
    | exception =>
      apply ih
      rcases hp with hp | ⟨hc, hp⟩
      · left; simp [Proc.exception, hp]
      · left; simp [Proc.exception, hp, hc]

example : ((((Proc.fresh.finish (fun _ => true) ["a"]).use [.watch, .exception, .watch]).exception).1) = some ["a"] := by decide

/-- Reading `exception` after the end of the target lets the child end, also one that waits because its message is long; afterwards the pipe is
empty. -/
theorem C112_released_partial {E : Type} (fits : List E → Bool) (exc : List E) :
    ((Proc.fresh.finish fits exc).exception).2.child = .ended ∧ ((Proc.fresh.finish fits exc).exception).2.pipe = none := by
  cases exc with
  | nil => simp [Proc.fresh, Proc.finish, Proc.exception]
  | cons e es => cases h : fits (e :: es) <;> simp [Proc.fresh, Proc.finish, Proc.exception, Proc.recv, h]

example : (Proc.fresh.finish (fun l => l.length ≤ 1) ["a", "b"]).child = .blocked ∧
    ((Proc.fresh.finish (fun l => l.length ≤ 1) ["a", "b"]).exception).2.child = .ended := by decide

/-- Threads report every time, and only failures. -/
theorem C112_thread_partial {E : Type} (exc : List E) :
    (exc ≠ [] → (Thr.fresh.finish exc).watch = .raised exc ∧ (Thr.fresh.finish exc).exception = some exc) ∧
    (exc = [] → (Thr.fresh.finish exc).watch = .quiet ∧ (Thr.fresh.finish exc).exception = none) := by
  cases exc <;> simp [Thr.fresh, Thr.finish, Thr.watch, Thr.exception]

/-! ## C113: `_spawn` reports a failure of a sub-process -/

/-- The specification: the process ends with an exception. -/
def Sub.Fails {E : Type} (p : Sub E) : Prop := ∃ d, p.ends = some d ∧ p.exc ≠ []

/-- C113, full statement: if some process fails and all end, `_spawn` raises, however the calls are timed. -/
def C113_full : Prop :=
  ∀ (E : Type) (clock : Nat → Nat) (ps : List (Sub E)) (fuel : Nat), StrictMono clock → (∀ p ∈ ps, p.ends.isSome) → (∃ p ∈ ps, p.Fails) →
    ∀ r, spawn clock ps fuel = some r → r = true

/-- As soon as one process has ended normally, the failures of the others are not reported any more. -/
theorem C113_violated_other {E : Type} (clock : Nat → Nat) (hc : StrictMono clock) (e : E) (fuel d : Nat) (h : clock 2 < d) :
    spawn clock [⟨some (clock 2), []⟩, ⟨some d, [e]⟩] (fuel + 1) = some false := by
  have h1 : clock 1 < d := lt_trans (hc (by norm_num)) h
  simp [spawn, spawnLoop, Sub.raises, Sub.alive, h1]

/-- A single process that fails between the two calls is taken for one that ended normally. -/
theorem C113_violated_race {E : Type} (clock : Nat → Nat) (hc : StrictMono clock) (e : E) (fuel : Nat) :
    spawn clock [⟨some (clock 1), [e]⟩] (fuel + 1) = some false := by
  have h : clock 0 < clock 1 := hc (by norm_num)
  simp [spawn, spawnLoop, Sub.raises, Sub.alive, h]

/-- With no process at all the loop never ends. -/
theorem C113_violated_empty {E : Type} (clock : Nat → Nat) (fuel : Nat) : spawn clock ([] : List (Sub E)) fuel = none := by
  unfold spawn
  generalize (0 : Nat) = a
  induction fuel generalizing a with
  | zero => rfl
  | succ f ih => simpa [spawnLoop] using ih _

/-- C113 is violated. -/
theorem C113_violated : ¬ C113_full := by
  intro h
  have := h Nat id [⟨some 1, [0]⟩] 1 strictMono_id (by simp) ⟨_, List.mem_singleton.2 rfl, 1, rfl, by simp⟩ false
    (C113_violated_race id strictMono_id 0 0)
  simp at this

private theorem loop_spec {E : Type} (clock : Nat → Nat) (ps : List (Sub E)) :
    ∀ (f a : Nat) (r : Bool), spawnLoop clock ps f a = some r →
      ∃ k, if r then ∃ i p d, ps[i]? = some p ∧ p.ends = some d ∧ p.exc ≠ [] ∧ d ≤ clock (a + 2 * ps.length * k + i)
        else (∀ (i : Nat) (p : Sub E) (d : Nat), ps[i]? = some p → p.exc ≠ [] → p.ends = some d → clock (a + 2 * ps.length * k + i) < d) ∧
          ∃ i p d, ps[i]? = some p ∧ p.ends = some d ∧ d ≤ clock (a + 2 * ps.length * k + ps.length + i) := by
  intro f
  induction f with
  | zero => intro a r h; simp [spawnLoop] at h
  | succ f ih =>
    intro a r h
    rw [spawnLoop] at h
    split at h
    · rename_i hr
      obtain rfl : true = r := Option.some.inj h
      refine ⟨0, ?_⟩
      simp only [if_true]
      rw [List.any_eq_true] at hr
      obtain ⟨⟨p, j⟩, hm, hp⟩ := hr
      rw [List.mem_zipIdx_iff_le_and_getElem?_sub] at hm
      unfold Sub.raises at hp
      cases hd : p.ends with
      | none => simp [hd] at hp
      | some d =>
        simp [hd] at hp
        refine ⟨j - a, p, d, hm.2, hd, ?_, ?_⟩
        · exact hp.2
        · have : a + 2 * ps.length * 0 + (j - a) = j := by have := hm.1; simp only at this; omega
          rw [this]; exact hp.1
    · rename_i hr
      split at h
      · rename_i ha
        obtain rfl : false = r := Option.some.inj h
        refine ⟨0, ?_⟩
        simp only [Bool.false_eq_true, if_false]
        constructor
        · intro i p d hi he hd
          by_contra hn
          apply hr
          rw [List.any_eq_true]
          refine ⟨(p, a + i), ?_, ?_⟩
          · rw [List.mem_zipIdx_iff_le_and_getElem?_sub]
            simp [hi]
          · have : clock (a + i) = clock (a + 2 * ps.length * 0 + i) := by simp
            simp only [Sub.raises, hd, this]
            simp only [not_lt] at hn
            simp only [mul_zero, add_zero] at hn
            simp [he, hn]
        · simp only [Bool.not_eq_true', List.all_eq_false] at ha
          obtain ⟨⟨p, j⟩, hm, hp⟩ := ha
          rw [List.mem_zipIdx_iff_le_and_getElem?_sub] at hm
          unfold Sub.alive at hp
          cases hd : p.ends with
          | none => simp [hd] at hp
          | some d =>
            simp [hd] at hp
            refine ⟨j - (a + ps.length), p, d, hm.2, hd, ?_⟩
            have : a + 2 * ps.length * 0 + ps.length + (j - (a + ps.length)) = j := by
              have := hm.1; simp only at this; omega
            rw [this]; exact hp
      · obtain ⟨k, hk⟩ := ih _ _ h
        refine ⟨k + 1, ?_⟩
        have e : ∀ x, a + 2 * ps.length + 2 * ps.length * k + x = a + 2 * ps.length * (k + 1) + x := by
          intro x; ring
        have e2 : ∀ x y, a + 2 * ps.length + 2 * ps.length * k + x + y = a + 2 * ps.length * (k + 1) + x + y := by
          intro x y; ring
        simpa only [e, e2] using hk

/-- C113, what holds: `_spawn` raises only if some process has failed; if it returns, then some process had ended, and every failing process
failed after the last look at it (call number `2 n k + i` of the last round `k`). -/
theorem C113_loop_partial {E : Type} (clock : Nat → Nat) (ps : List (Sub E)) (fuel : Nat) (r : Bool) (h : spawn clock ps fuel = some r) :
    (r = true → ∃ p ∈ ps, p.Fails) ∧
    (r = false → (∃ p ∈ ps, p.ends.isSome) ∧
      ∃ k, ∀ (i : Nat) (p : Sub E) (d : Nat), ps[i]? = some p → p.exc ≠ [] → p.ends = some d → clock (2 * ps.length * k + i) < d) := by
  obtain ⟨k, hk⟩ := loop_spec clock ps fuel 0 r h
  cases r with
  | true =>
    simp only [if_true] at hk
    obtain ⟨i, p, d, hi, hd, he, _⟩ := hk
    exact ⟨fun _ => ⟨p, List.mem_of_getElem? hi, d, hd, he⟩, by simp⟩
  | false =>
    simp only [Bool.false_eq_true, if_false] at hk
    obtain ⟨h1, i, p, d, hi, hd, _⟩ := hk
    refine ⟨by simp, fun _ => ⟨⟨p, List.mem_of_getElem? hi, by simp [hd]⟩, k, ?_⟩⟩
    intro i p d hi he hd
    have := h1 i p d hi he hd
    simpa using this

/-- A failure is reported if it can be seen while all processes are still running: all processes run beyond the calls of the rounds before
`k`, and process `i` has failed by the time it is watched in round `k`. -/
theorem C113_reported_partial {E : Type} (clock : Nat → Nat) (ps : List (Sub E)) (k i d : Nat) (p : Sub E)
    (hrun : ∀ q ∈ ps, ∀ d', q.ends = some d' → ∀ j, j < 2 * ps.length * k → clock j < d')
    (hi : ps[i]? = some p) (hd : p.ends = some d) (he : p.exc ≠ []) (hw : d ≤ clock (2 * ps.length * k + i)) :
    spawn clock ps (k + 1) = some true := by
  suffices ∀ (m a : Nat), a + 2 * ps.length * m = 2 * ps.length * k → spawnLoop clock ps (m + 1) a = some true from this k 0 (by omega)
  intro m
  induction m with
  | zero =>
    intro a ha
    have : (ps.zipIdx a).any (fun q => q.1.raises (clock q.2)) = true := by
      rw [List.any_eq_true]
      refine ⟨(p, a + i), ?_, ?_⟩
      · rw [List.mem_zipIdx_iff_le_and_getElem?_sub]; simp [hi]
      · simp only [mul_zero, add_zero] at ha
        simp [Sub.raises, hd, ha, hw, he]
    rw [spawnLoop, if_pos this]
  | succ m ih =>
    intro a ha
    have ha' : a + 2 * ps.length + 2 * ps.length * m = 2 * ps.length * k := by rw [← ha]; ring
    rw [spawnLoop]
    have alive : ∀ (q : Sub E) (j : Nat), q ∈ ps → j < a + 2 * ps.length → q.alive (clock j) = true := by
      intro q j hq hj
      unfold Sub.alive
      cases hqe : q.ends with
      | none => rfl
      | some d' =>
        have := hrun q hq d' hqe j (by omega)
        simpa using this
    have hno : (ps.zipIdx a).any (fun q => q.1.raises (clock q.2)) = false := by
      rw [List.any_eq_false]
      rintro ⟨q, j⟩ hm
      rw [List.mem_zipIdx_iff_le_and_getElem?_sub] at hm
      have hlt := (List.getElem?_eq_some_iff.1 hm.2).1
      have hm1 := hm.1
      simp only at hm1 hlt
      have := alive q j (List.mem_of_getElem? hm.2) (by omega)
      unfold Sub.alive at this
      unfold Sub.raises
      cases hqe : q.ends with
      | none => simp
      | some d' =>
        simp only [hqe, decide_eq_true_eq] at this
        simp [this]
    have hal : (ps.zipIdx (a + ps.length)).all (fun q => q.1.alive (clock q.2)) = true := by
      rw [List.all_eq_true]
      rintro ⟨q, j⟩ hm
      rw [List.mem_zipIdx_iff_le_and_getElem?_sub] at hm
      have hlt := (List.getElem?_eq_some_iff.1 hm.2).1
      have hm1 := hm.1
      simp only at hm1 hlt
      exact alive q j (List.mem_of_getElem? hm.2) (by omega)
    rw [hno, hal]
    simpa using ih _ ha'

example : spawn id [(⟨some 7, ["a"]⟩ : Sub String), ⟨some 12, []⟩] 3 = some true := by decide
example : spawn id [(⟨some 2, []⟩ : Sub String), ⟨some 12, ["a"]⟩] 3 = some false := by decide

end Machin.Proc
