import Verif.Noise.Cancel
import Verif.Noise.PropsExact

/-!
# C259: the end of parameter noise

C259: calling the function that `perturb_model` returned ends the perturbation: the model has its own parameters again, and later passes leave them alone.
**The code violates it**: only the hooks are removed. A model whose last pass was noisy keeps the noise, and switching noise off afterwards has no effect.
-/

namespace Machin.Noise

/-- The steps of the optimizer in a sequence of uses. -/
def stepsOf {K : Type} : List (Use K) → List (Nat → K)
  | [] => []
  | .step d :: l => d :: stepsOf l
  | _ :: l => stepsOf l

/-- Passes with noise on, as uses. -/
def noisyUses {K : Type} (passes : List (Bool × (Nat → K))) : List (Use K) := passes.map fun p => .forward true p.1 p.2

/-- C259 in full: after any forward passes of a freshly perturbed model and the end of the perturbation, the parameters are the original ones, and further
passes change nothing. -/
def C259_full : Prop :=
  ∀ (s : Hooked ℚ) (before after : List (Bool × Bool × (Nat → ℚ))), Settled s → s.org = [] → s.noisy = [] →
    ((Patched.mk s true).run (before.map (fun p => .forward p.1 p.2.1 p.2.2) ++ [.cancel] ++ after.map fun p => .forward p.1 p.2.1 p.2.2)).hooked.values = s.values

/-- **C259 is violated**: one noisy pass, then the end of the perturbation, then a pass with noise off: the noise is still in the parameters. -/
theorem C259_violated : ¬ C259_full := by
  intro h
  have := h demo [(true, false, fun _ => 1)] [(false, false, fun _ => 0)] demo_settled rfl rfl
  revert this
  decide +kernel

theorem run_append {K : Type} [Add K] [Sub K] (s : Patched K) (a b : List (Use K)) : s.run (a ++ b) = (s.run a).run b := List.foldl_append

theorem run_noisy {K : Type} [Add K] [Sub K] (s : Hooked K) (passes : List (Bool × (Nat → K))) :
    (Patched.mk s true).run (noisyUses passes) = ⟨noisyPasses s passes, true⟩ := by
  induction passes generalizing s with
  | nil => rfl
  | cons p ps ih => exact ih (s.forward true p.1 p.2)

theorem values_step {K : Type} [Sub K] (s : Hooked K) (hn : s.params.Nodup) (d : Nat → K) : (s.step d).values = s.values.mapIdx fun i v => v - d i := by
  obtain ⟨-, h1⟩ := stepHeap_spec d 0 s.heap s.params hn
  refine List.ext_getElem? fun i => ?_
  rw [List.getElem?_mapIdx]
  simp only [Hooked.values, Hooked.step, List.getElem?_map]
  cases hp : s.params[i]? with
  | none => rfl
  | some p => simp [h1 i p hp]

/-- **C259** (partial), what holds: once the perturbation has ended, passes do nothing; every parameter is what it was at the end of the perturbation, less
the steps of the optimizer made since. This holds at any state of a model with different parameters. -/
theorem C259_ended_partial {K : Type} [Add K] [Sub K] (s : Patched K) (hn : s.hooked.params.Nodup) (l : List (Use K)) :
    ((s.run [.cancel]).run l).hooked.values = s.hooked.values.mapIdx (fun i v => (stepsOf l).foldl (fun v d => v - d i) v) ∧
    ((s.run [.cancel]).run l).live = false := by
  have key : ∀ (l : List (Use K)) (s : Patched K), s.live = false → s.hooked.params.Nodup →
      (s.run l).hooked.values = s.hooked.values.mapIdx (fun i v => (stepsOf l).foldl (fun v d => v - d i) v) ∧ (s.run l).live = false := by
    intro l
    induction l with
    | nil =>
      intro s hl _
      refine ⟨List.ext_getElem? fun i => ?_, hl⟩
      simp [Patched.run, stepsOf]
    | cons u l ih =>
      intro s hl hn
      have hs : s.run (u :: l) = (s.use u).run l := rfl
      rw [hs]
      cases u with
      | forward p r n =>
        have : s.use (.forward p r n) = s := by simp [Patched.use, hl]
        rw [this]
        exact ih s hl hn
      | backward =>
        have : s.use .backward = s := by simp [Patched.use, hl]
        rw [this]
        exact ih s hl hn
      | step d =>
        obtain ⟨h1, h2⟩ := ih (s.use (.step d)) hl hn
        refine ⟨?_, h2⟩
        rw [h1]
        show (s.hooked.step d).values.mapIdx _ = _
        rw [values_step _ hn, List.mapIdx_mapIdx]
        rfl
      | cancel => exact ih (s.use .cancel) rfl hn
  exact key l (s.run [.cancel]) rfl hn

/-- **C259** (partial), exactly what is left: after noisy passes of a freshly perturbed model and the end of the perturbation, the noise of every draw is in
the parameters; with one pass with noise off before the end, the noise of every draw but the last one. -/
theorem C259_left_partial {K : Type} [Add K] [Sub K] (s : Hooked K) (hs : Settled s) (ho : s.org = [] ∧ s.noisy = []) (passes : List (Bool × (Nat → K))) (b : Bool)
    (n : Nat → K) :
    ((Patched.mk s true).run (noisyUses passes ++ [.cancel])).hooked.values = addAll s.values (drawn passes) ∧
    ((Patched.mk s true).run (noisyUses passes ++ [.forward false b n, .cancel])).hooked.values = addAll s.values (drawn passes).dropLast := by
  constructor
  · rw [run_append, run_noisy]
    show (noisyPasses s passes).values = _
    have h0 : s.values = addAll s.values [] := List.ext_getElem? fun i => by simp [addAll]
    cases passes with
    | nil => exact h0
    | cons p ps =>
      have h1 := generate_noisy s.values [] s ⟨hs.1, hs.2.1, Or.inl ho⟩ h0 p.1 p.2 (Or.inl ho.2)
      have h2 := (noisy_passes s.values ps _ _ (by simp) h1).values
      have hst : noisyPasses s (p :: ps) = noisyPasses (s.forward true p.1 p.2) ps := rfl
      rw [hst]
      simpa [drawn] using h2
  · rw [run_append, run_noisy]
    exact C62_exact_partial s hs ho passes b n

/-- **C259** (partial), when it holds: noise drawn at most once, and a pass with noise off before the end. Then the model has its own parameters, and steps of the
optimizer made later change these, whatever passes are between them. -/
theorem C259_restored_partial {K : Type} [Add K] [Sub K] (s : Hooked K) (hs : Settled s) (hd : Sound s) (passes : List (Bool × (Nat → K)))
    (hr : ∀ p ∈ passes.tail, p.1 = false) (b : Bool) (n : Nat → K) (l : List (Use K)) :
    ((Patched.mk s true).run (noisyUses passes ++ [.forward false b n, .cancel] ++ l)).hooked.values =
      s.values.mapIdx fun i v => (stepsOf l).foldl (fun v d => v - d i) v := by
  have hsound : ∀ (ps : List (Bool × (Nat → K))) (s : Hooked K), Sound s → Sound (noisyPasses s ps) := by
    intro ps
    induction ps with
    | nil => intro s h; exact h
    | cons p ps ih => intro s h; exact ih _ (sound_forward s h _ _ _)
  have h := C259_ended_partial (⟨(noisyPasses s passes).forward false b n, true⟩ : Patched K) (sound_forward _ (hsound passes s hd) _ _ _).1 l
  rw [C62_restored_partial s hs passes hr b n] at h
  rw [run_append, run_append, run_noisy]
  exact h.1

/-- Two draws, a pass with noise off, the end, a step of the optimizer with passes around it. -/
example : ((Patched.mk demo true).run [.forward true false fun _ => 1, .forward true true fun _ => 10, .forward false false fun _ => 0, .cancel,
    .forward true true fun _ => 100, .step fun _ => 2, .backward, .forward false false fun _ => 0]).hooked.values = [4, 6] ∧
    ((Patched.mk demo true).run [.forward true false fun _ => 1, .cancel, .forward false false fun _ => 0]).hooked.values = [6, 8] := by
  decide +kernel

end Machin.Noise
