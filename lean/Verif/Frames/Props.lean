import Verif.Frames.Lemmas2
import Verif.Frames.Lemmas3

/-!
# C165: every setting of a generated configuration takes effect
-/

namespace Machin.Frames

open Machin

/-- A changed setting changes the constructed framework. -/
def C165_full : Prop :=
  ∀ (V : Type) (al : Algo) (env : Env V) (c c' : Key → Option V) (k : Key) (fr : Frame V),
    Complete al c → Complete al c' → NamesPolicy al env c → k ∈ settings al → DifferIn k c c' →
    (k = .expertTrajectoryPath → ∀ v, c k = some v ∨ c' k = some v → env.isFile v = true) →
    init al env (arity al) c = .ok fr → init al env (arity al) c' ≠ .ok fr

/-- All but the ignored settings take effect. -/
theorem C165_partial {V : Type} (al : Algo) (env : Env V) (c c' : Key → Option V) (k : Key) (fr : Frame V) (hc : Complete al c)
    (hc' : Complete al c') (hn : NamesPolicy al env c) (hk : k ∈ settings al) (hi : k ∉ ignored al) (hd : DifferIn k c c')
    (hf : k = .expertTrajectoryPath → ∀ v, c k = some v ∨ c' k = some v → env.isFile v = true)
    (h : init al env (arity al) c = .ok fr) : init al env (arity al) c' ≠ .ok fr := by
  intro h'
  have hn' : NamesPolicy al env c' := by
    intro hg
    obtain ⟨v, p, h1, h2⟩ := hn hg
    have : Key.constrainedPolicyOptimization ≠ k := by
      intro he
      rw [← he] at hk
      exact absurd (List.mem_filter.mp hk).2 (by simp [structural])
    exact ⟨v, p, by rw [← hd.2 _ this]; exact h1, h2⟩
  obtain ⟨fr1, e1, o1⟩ := init_observe al env c hc hn
  obtain ⟨fr2, e2, o2⟩ := init_observe al env c' hc' hn'
  rw [h] at e1
  rw [h'] at e2
  have f1 : fr = fr1 := Except.ok.inj e1
  have f2 : fr = fr2 := Except.ok.inj e2
  have a1 := o1 k hk hi (fun he v hv => hf he v (Or.inl hv))
  have a2 := o2 k hk hi (fun he v hv => hf he v (Or.inr hv))
  rw [← f1] at a1
  rw [← f2] at a2
  exact hd.1 (a1.symm.trans a2)

/-- The ignored settings have no effect at all. -/
theorem C165_ignored {V : Type} (al : Algo) (env : Env V) (c c' : Key → Option V) (k : Key) (hc : Complete al c) (hc' : Complete al c')
    (hk : k ∈ ignored al) (hd : DifferIn k c c') : init al env (arity al) c = init al env (arity al) c' :=
  init_ignored al env c c' hc hc' k hk hd.2

/-- The code of the framework gets every handed setting under its own name, every built argument, and nothing of the configuration under another
name. -/
theorem C165_handed {V : Type} (al : Algo) (env : Env V) (c : Key → Option V) (g : Key → V) (hg : ∀ k ∈ al.keys, c k = some (g k))
    (hs : ∀ k ∈ slots al, c k = none) (ppo : Bool) (hp : al = .gail → env.policyKind (g .constrainedPolicyOptimization) = some ppo) :
    ∃ fr, init al env (arity al) c = .ok fr ∧
      (∀ k ∈ handed al, fr.attrs.lookup k = some (.conf (g k))) ∧
      (∀ x ∈ built al g (decide (al ∈ withRoles) && decide (env.rank < env.number (g .learnerProcessNumber))) ppo,
        fr.attrs.lookup x.1 = some x.2) ∧
      ∀ k w, k ∈ al.keys → (k, .conf w) ∈ fr.attrs → w = g k :=
  init_args al env c g hg hs ppo hp

/-- The table of ignored settings holds generated settings only. -/
theorem C165_ignored_settings (al : Algo) : ∀ k ∈ ignored al, k ∈ settings al := by
  cases al <;> decide

/-- Surroundings for the examples: one learner, this process has rank 0. -/
def env0 : Env Nat := { rank := 0, number := fun v => v, policyKind := fun v => some (v == 0), isFile := fun v => v == 1 }

/-- A configuration whose settings are all 1, apart from one. -/
def sample (al : Algo) (k : Key) (v : Nat) : Key → Option Nat := fun x =>
  if x ∈ al.keys then some (if x = k then v else 1) else none

theorem sample_complete (al : Algo) (k : Key) (v : Nat) : Complete al (sample al k v) := by
  constructor
  · intro x hx
    unfold sample
    rw [if_pos hx]
    rfl
  · intro x hx
    have : x ∉ al.keys := by
      have := (List.mem_filter.mp hx).2
      simpa using this
    unfold sample
    rw [if_neg this]

theorem sample_differ (al : Algo) (k : Key) (hk : k ∈ al.keys) : DifferIn k (sample al k 1) (sample al k 2) := by
  constructor
  · unfold sample
    simp [if_pos hk]
  · intro x hx
    unfold sample
    simp [hx]

theorem C165_violated_at (al : Algo) (k : Key) (hk : k ∈ ignored al) (hg : al ≠ .gail) : ¬ C165_full := by
  intro h
  have hs := C165_ignored_settings al k hk
  have hkk : k ∈ al.keys := (List.mem_filter.mp hs).1
  have hn : NamesPolicy al env0 (sample al k 1) := fun h => absurd h hg
  obtain ⟨fr, e, _⟩ := init_observe al env0 (sample al k 1) (sample_complete al k 1) hn
  refine h Nat al env0 (sample al k 1) (sample al k 2) k fr (sample_complete _ _ _) (sample_complete _ _ _) hn hs (sample_differ al k hkk) ?_ e ?_
  · intro he
    rw [he] at hk
    exfalso
    revert hk
    cases al <;> decide
  · rw [← C165_ignored al env0 _ _ k (sample_complete _ _ _) (sample_complete _ _ _) hk (sample_differ al k hkk)]
    exact e

/-- The generated configuration of DDPGApex has a `learning_rate` that nothing reads (its constructor has `actor_learning_rate` and
`critic_learning_rate`). -/
theorem C165_violated : ¬ C165_full := C165_violated_at .ddpgApex .learningRate (by decide) (by decide)

/-- RAINBOW drops the criterion. -/
theorem C165_violated_rainbow : ¬ C165_full := C165_violated_at .rainbow .criterion (by decide) (by decide)

/-- DQNPer is always of the mode `double`. -/
theorem C165_violated_dqnPer : ¬ C165_full := C165_violated_at .dqnPer .mode (by decide) (by decide)

/-- TRPO updates its actor once. -/
theorem C165_violated_trpo : ¬ C165_full := C165_violated_at .trpo .actorUpdateTimes (by decide) (by decide)

/-- The learning rates of DDPGApex are the defaults, whatever rate the configuration names. -/
theorem C165_violated_defaults (v : Nat) :
    (init .ddpgApex env0 4 (sample .ddpgApex .learningRate v)).map (fun fr => (fr.attrs.lookup .actorLearningRate, fr.attrs.lookup .criticLearningRate)) =
      .ok (some (.text "0.0005"), some (.text "0.001")) := by
  cbv

example : Complete .sac (sample .sac .gradientMax 3) ∧ NamesPolicy .sac env0 (sample .sac .gradientMax 3) ∧ Key.gradientMax ∈ settings .sac ∧
    Key.gradientMax ∉ ignored .sac ∧ DifferIn .gradientMax (sample .sac .gradientMax 1) (sample .sac .gradientMax 2) :=
  ⟨sample_complete _ _ _, (fun h => by cases h), by decide, by decide, sample_differ _ _ (by decide)⟩

example : Key.mode ∈ ignored .dqnPer ∧ DifferIn .mode (sample .dqnPer .mode 1) (sample .dqnPer .mode 2) :=
  ⟨by decide, sample_differ _ _ (by decide)⟩

example : (∀ k ∈ Algo.gail.keys, sample .gail .models 1 k = some 1) ∧ (∀ k ∈ slots .gail, sample .gail .models 1 k = none) ∧
    env0.policyKind 1 = some false := by
  refine ⟨by decide, by decide, rfl⟩

end Machin.Frames
