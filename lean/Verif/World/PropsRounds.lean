import Verif.World.RoundsLemmas

/-! # The barrier used again and again (C230) -/

namespace Machin.Rounds

/-- C230, full statement: the promise holds in every history, and if everybody has called `barrier()` for the `r`-th time then everybody
can return from it. -/
def C230_full : Prop :=
  (∀ n steps, Together n (run n init steps)) ∧
  (∀ n steps r, (∀ i < n, r ≤ (run n init steps).calls i) → ∃ more, ∀ i < n, r ≤ (run n init (steps ++ more)).returns i)

/-- Three members; all call `barrier()`, the leader releases members 0 and 1. Member 1 returns, calls `barrier()` for the second time while its
exit service has set the event and not cleared it yet, and returns at once: before member 0 and member 2 have called for the second time. -/
theorem C230_violated_early :
    let s := run 3 init [.enter 0, .enter 1, .wait 1, .enter 2, .wait 2, .leader, .leader, .leader, .leader, .leader, .leader,
      .wait 1, .enter 1, .wait 1]
    s.returns 1 = 2 ∧ s.calls 0 = 1 ∧ s.calls 2 = 1 := by decide

/-- **C230.** In every calm history, however many times the barrier is used: whoever has returned `r` times, everybody has called at least `r`
times. -/
theorem C230_together_partial (n : Nat) (steps : List Step) (h : Calm n init steps) : Together n (run n init steps) :=
  (Inv.run steps (Inv.init n) h).together

/-- Two uses by three members, in which member 1 calls again before member 2 has returned. -/
def example230 : List Step :=
  [.enter 1, .wait 1, .enter 0, .leader, .enter 2, .wait 2, .leader, .leader, .leader, .leader, .leader, .leader, .leader, .leader, .leader,
    .wait 1, .enter 1, .leader, .leader, .wait 2, .enter 2, .wait 2, .wait 1, .enter 0]

example : Calm 3 init example230 ∧ Prompt 3 init example230 ∧ (run 3 init example230).returns 1 = 1 ∧ (run 3 init example230).calls 0 = 2 := by
  refine ⟨?_, ?_, by decide, by decide⟩
  · simp [Calm, example230, step, init, upd]
  · simp [Prompt, example230, step, init, upd]

/-- **C230, violated.** Once a member is doomed it never returns, whatever happens later; and in calm histories nobody ever gets past the barrier
that it is in. -/
theorem C230_violated_hangs (n : Nat) (steps : List Step) (h : Calm n init steps) (i : Nat) (hi : i < n) (hd : Doomed (run n init steps) i)
    (more : List Step) :
    (run n init (steps ++ more)).returns i = (run n init steps).returns i ∧
    (run n init (steps ++ more)).returns i < (run n init (steps ++ more)).calls i ∧
    (Calm n init (steps ++ more) → ∀ j < n, (run n init (steps ++ more)).returns j ≤ (run n init steps).calls i) := by
  have hinv := Inv.run steps (Inv.init n) h
  have hl := Lost.run more (hinv.lost i hi hd)
  rw [run_append]
  refine ⟨hl.2.2, ?_, ?_⟩
  · rw [hl.2.2, hl.2.1]
    have := hinv.back i hd.1 (by rcases hd.2.2.2 with hp | hp <;> rw [hp] <;> simp)
    omega
  · intro hc j hj
    have := C230_together_partial n (steps ++ more) hc j i hj hi
    rw [run_append, hl.2.1] at this
    exact this

/-- Two members; both call `barrier()`, and the exit service of member 1 runs before it waits: it is doomed. -/
def doomed230 : List Step := [.enter 0, .enter 1, .leader, .leader, .leader, .leader, .leader, .leader, .wait 1]

theorem doomed230_doomed : Calm 2 init doomed230 ∧ Doomed (run 2 init doomed230) 1 ∧ ∀ i < 2, (run 2 init doomed230).calls i = 1 := by
  refine ⟨?_, by unfold Doomed; decide, by decide⟩
  simp [Calm, doomed230, step, init]

theorem C230_violated : ¬ C230_full := by
  rintro ⟨_, h⟩
  obtain ⟨hc, hd, h1⟩ := doomed230_doomed
  obtain ⟨more, hm⟩ := h 2 doomed230 1 (fun i hi => by rw [h1 i hi]; exact Nat.le_refl _)
  have := (C230_violated_hangs 2 doomed230 hc 1 (by omega) hd more).1
  have h2 := hm 1 (by omega)
  rw [this] at h2
  revert h2
  decide

theorem C230_violated_safety : ¬ ∀ n steps, Together n (run n init steps) := by
  intro h
  have h1 := h 3 [.enter 0, .enter 1, .wait 1, .enter 2, .wait 2, .leader, .leader, .leader, .leader, .leader, .leader, .wait 1, .enter 1, .wait 1]
    1 0 (by omega) (by omega)
  revert h1
  decide

/-- **C230.** After a calm history the group can go on using the barrier for ever if and only if no member is doomed. -/
theorem C230_alive_partial (n : Nat) (steps : List Step) (h : Calm n init steps) :
    (∀ r, ∃ more, Calm n init (steps ++ more) ∧ ∀ i < n, r ≤ (run n init (steps ++ more)).returns i) ↔
    ¬ ∃ i < n, Doomed (run n init steps) i := by
  have hinv := Inv.run steps (Inv.init n) h
  constructor
  · rintro hr ⟨i, hi, hd⟩
    obtain ⟨more, _, hm⟩ := hr ((run n init steps).returns i + 1)
    have h1 := (C230_violated_hangs n steps h i hi hd more).1
    have h2 := hm i hi
    omega
  · intro hd r
    obtain ⟨s', ⟨more, hm, rfl⟩, hr⟩ := progress hinv (fun i hi hdi => hd ⟨i, hi, hdi⟩) r
    exact ⟨more, (Calm.append more steps).2 ⟨h, hm⟩, fun i hi => by rw [run_append]; exact hr i hi⟩

/-- **C230.** If moreover no exit service is finished while its member stands between `_barrier_status = True` and `wait`, the group can
always go on. -/
theorem C230_prompt_partial (n : Nat) (steps : List Step) (h : Calm n init steps) (hp : Prompt n init steps) (r : Nat) :
    ∃ more, Calm n init (steps ++ more) ∧ ∀ i < n, r ≤ (run n init (steps ++ more)).returns i := by
  refine (C230_alive_partial n steps h).2 ?_ r
  rintro ⟨i, _, hd⟩
  refine not_doomed_run steps (Inv.init n) h hp ?_ i hd
  intro i hi
  rcases hi.2.2.2 with e | e <;> cases e

end Machin.Rounds
