import Verif.Finalize.Lemmas

/-! # Properties of finalizers: C40, C69 -/

namespace Machin.Finalize

/-! ### C40: at most once -/

/-- Whatever happens, in whatever order, and also from inside the callback: every callback is called at most once. -/
theorem C40_once (pid : Nat) (ops : List Op) (id : Nat) : (run pid ops).log.count id ≤ 1 := by
  rw [(Sim.run pid ops).log]
  exact (SInv.foldl _ (fun _ => ⟨Nat.zero_le _, fun _ => rfl⟩) ops id).1

/-- After `cancel()` of a finalizer that was not called yet, its callback is never called. -/
theorem C40_cancelled (pid : Nat) (before after : List Op) (id : Nat) (h : stillActive (run pid before) id = true) :
    (run pid (before ++ .cancel id :: after)).log.count id = 0 := by
  rw [(Sim.run pid _).log]
  rcases ((Sim.run pid before).active_iff id).mp h with ⟨p, hp⟩
  have e : Spec.run pid (before ++ .cancel id :: after) = after.foldl Spec.step (Spec.step (Spec.run pid before) (.cancel id)) := by
    simp [Spec.run]
  have hs : (Spec.step (Spec.run pid before) (.cancel id)).status id = .consumed := by
    simp only [Spec.step, hp]; exact put_same _ _ _
  rw [e, (consumed_foldl _ id hs after).2]
  have hl : (Spec.step (Spec.run pid before) (.cancel id)).log = (Spec.run pid before).log := by simp only [Spec.step, hp]
  rw [hl]
  exact (SInv.foldl _ (fun _ => ⟨Nat.zero_le _, fun _ => rfl⟩) before id).2 (by unfold Spec.run at hp; rw [hp]; simp)

/-- `still_active()` is true exactly if the finalizer was created and has neither been called nor cancelled. -/
theorem C40_active (pid : Nat) (ops : List Op) (id : Nat) :
    stillActive (run pid ops) id = true ↔ ∃ p, (Spec.run pid ops).status id = .active p :=
  (Sim.run pid ops).active_iff id

/-- The executed callbacks, in order, are those of the specification. -/
theorem C40_log (pid : Nat) (ops : List Op) : (run pid ops).log = (Spec.run pid ops).log := (Sim.run pid ops).log

/-- A call of an active finalizer in the process that created it runs the callback. -/
theorem C40_call (pid : Nat) (ops : List Op) (id : Nat) (hp : (Spec.run pid ops).status id = .active (Spec.run pid ops).pid) :
    (run pid (ops ++ [.call id])).log = (run pid ops).log ++ [id] := by
  rw [(Sim.run pid _).log, (Sim.run pid _).log]
  have e : Spec.run pid (ops ++ [.call id]) = Spec.step (Spec.run pid ops) (.call id) := by simp [Spec.run]
  rw [e]
  simp only [Spec.step, hp, if_true]

/-- Two finalizers, one called twice (the second time from inside its callback), one cancelled; a child process runs none of
the callbacks of its parent. -/
example : (run 1 [.create 0 none true, .create 1 (some 5) false, .call 0, .call 0, .done 0, .cancel 1, .call 1, .call 0]).log = [0] ∧
    (run 1 [.create 0 none true, .fork 2, .call 0]).log = [] ∧
    stillActive (run 1 [.create 0 none true, .create 1 (some 5) false]) 1 = true := by decide

/-! ### C69: garbage collection -/

/-- The whole property: when the object is collected, an active finalizer runs its callback. -/
def C69_full : Prop :=
  ∀ (pid : Nat) (ops : List Op) (id : Nat), (Spec.run pid ops).status id = .active (Spec.run pid ops).pid →
    id ∈ (run pid (ops ++ [.gc id])).log

/-- False: the weak reference is taken for the registry, the call fails. -/
theorem C69_violated : ¬ C69_full := by
  intro h
  have := h 1 [.create 0 none true] 0 (by decide)
  revert this
  decide

/-- Never does garbage collection run a callback or change anything. -/
theorem C69_gc_partial (pid : Nat) (ops more : List Op) (id : Nat) :
    run pid (ops ++ .gc id :: more) = run pid (ops ++ more) := by
  simp [run, step, gc]

example : stillActive (run 1 [.create 0 none true, .gc 0]) 0 = true ∧ (run 1 [.create 0 none true, .gc 0, .call 0]).log = [0] := by decide

end Machin.Finalize
