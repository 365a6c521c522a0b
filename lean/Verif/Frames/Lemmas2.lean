import Verif.Frames.Lemmas

/-!
# Further lemmas for frameworks from configurations
-/

namespace Machin.Frames

open Machin

variable {V : Type}

theorem of_map {α β : Type} {x : Except Err α} {f : α → β} {y : β} (h : x.map f = .ok y) : ∃ a, x = .ok a ∧ f a = y := by
  cases x with
  | error e => cases h
  | ok a => exact ⟨a, rfl, by simpa [Except.map] using h⟩

theorem obs_iff (al : Algo) (fr : Frame V) (g : Key → V) (h : obsAll al fr = expected al g) :
    ∀ k ∈ settings al, k ∉ ignored al → observe k fr = some (g k) := by
  intro k hk hi
  have h1 := List.map_inj_left.mp h k (List.mem_filter.mpr ⟨hk, by simpa using hi⟩)
  exact (Prod.mk.inj h1).2

theorem obs_iff' (fr : Frame V) (g : Key → V)
    (h : obsAll .gail fr = (expected .gail g).map fun x => if x.1 = .expertTrajectoryPath then (x.1, none) else x) :
    ∀ k ∈ settings .gail, k ≠ .expertTrajectoryPath → observe k fr = some (g k) := by
  intro k hk hp
  unfold obsAll expected at h
  rw [List.map_map] at h
  have h1 := List.map_inj_left.mp h k (List.mem_filter.mpr ⟨hk, by simp [ignored]⟩)
  simp only [Function.comp, if_neg hp] at h1
  exact (Prod.mk.inj h1).2

theorem settings_keys (al : Algo) (k : Key) (h : k ∈ settings al) : k ∈ al.keys := (List.mem_filter.mp h).1

/-- A complete configuration for the right number of models is accepted, and the framework shows every setting that is not ignored. -/
theorem init_observe (al : Algo) (env : Env V) (c : Key → Option V) (hc : Complete al c) (hn : NamesPolicy al env c) :
    ∃ fr, init al env (arity al) c = .ok fr ∧
      ∀ k ∈ settings al, k ∉ ignored al → (k = .expertTrajectoryPath → ∀ v, c k = some v → env.isFile v = true) → observe k fr = c k := by
  obtain ⟨g, hg⟩ := conf_of_complete al c hc
  have key : ∀ k ∈ al.keys, c k = some (g k) := by
    intro k hk
    rw [hg]; exact conf_key al g c k hk
  suffices h : (∃ fr, init al env (arity al) (conf al g c) = .ok fr ∧
      ∀ k ∈ settings al, k ∉ ignored al → (k = .expertTrajectoryPath → env.isFile (g k) = true) → observe k fr = some (g k)) by
    obtain ⟨fr, h1, h2⟩ := h
    refine ⟨fr, by rw [← hg] at h1; exact h1, ?_⟩
    intro k hk hi hp
    have hk' := key k (settings_keys al k hk)
    rw [hk']
    exact h2 k hk hi (fun he => hp he _ hk')
  have fin : ∀ {x : Except Err (Frame V)}, x.map (obsAll al) = .ok (expected al g) →
      ∃ fr, x = .ok fr ∧
      ∀ k ∈ settings al, k ∉ ignored al → (k = .expertTrajectoryPath → env.isFile (g k) = true) → observe k fr = some (g k) := by
    intro x hx
    obtain ⟨fr, h1, h2⟩ := of_map hx
    exact ⟨fr, h1, fun k hk hi _ => obs_iff al fr g h2 k hk hi⟩
  cases al
  case dqn => exact fin (obs_dqn env g c)
  case dqnPer => exact fin (obs_dqnPer env g c)
  case rainbow => exact fin (obs_rainbow env g c)
  case ddpg => exact fin (obs_ddpg env g c)
  case hddpg => exact fin (obs_hddpg env g c)
  case td3 => exact fin (obs_td3 env g c)
  case ddpgPer => exact fin (obs_ddpgPer env g c)
  case a2c => exact fin (obs_a2c env g c)
  case a3c => exact fin (obs_a3c env g c)
  case ppo => exact fin (obs_ppo env g c)
  case trpo => exact fin (obs_trpo env g c)
  case sac => exact fin (obs_sac env g c)
  case ars => exact fin (obs_ars env g c)
  case maddpg => exact fin (obs_maddpg env g c)
  case dqnApex =>
    have hl := conf_key .dqnApex g c .learnerProcessNumber (by decide)
    have := initLearners_with env Algo.dqnApex.chain .apexGroupName .apexMembers true (arity .dqnApex) _ _ hl
    show ∃ fr, initLearners _ _ _ _ _ _ _ = _ ∧ _
    rw [this]
    exact fin (obs_dqnApex _ g c)
  case ddpgApex =>
    have hl := conf_key .ddpgApex g c .learnerProcessNumber (by decide)
    have := initLearners_with env Algo.ddpgApex.chain .apexGroupName .apexMembers true (arity .ddpgApex) _ _ hl
    show ∃ fr, initLearners _ _ _ _ _ _ _ = _ ∧ _
    rw [this]
    exact fin (obs_ddpgApex _ g c)
  case impala =>
    have hl := conf_key .impala g c .learnerProcessNumber (by decide)
    have := initLearners_with env Algo.impala.chain .impalaGroupName .impalaMembers false (arity .impala) _ _ hl
    show ∃ fr, initLearners _ _ _ _ _ _ _ = _ ∧ _
    rw [this]
    exact fin (obs_impala _ g c)
  case gail =>
    obtain ⟨v, ppo, hv, hp⟩ := hn rfl
    have h1 := conf_key .gail g c .constrainedPolicyOptimization (by decide)
    have h2 := conf_key .gail g c .expertTrajectoryPath (by decide)
    have hv' : v = g .constrainedPolicyOptimization := by
      rw [key .constrainedPolicyOptimization (by decide)] at hv
      exact (Option.some.inj hv).symm
    subst hv'
    have := initGail_with env 1 _ _ _ ppo h1 hp h2
    show ∃ fr, initGail env 1 _ = _ ∧ _
    rw [this]
    cases hf : env.isFile (g .expertTrajectoryPath)
    · obtain ⟨fr, e1, e2⟩ := of_map (obs_gail_nofile ppo g c)
      refine ⟨fr, e1, fun k hk _ hpth => ?_⟩
      refine obs_iff' fr g e2 k hk (fun he => ?_)
      have := hpth he
      rw [he, hf] at this
      cases this
    · exact fin (obs_gail ppo g c)

/-- A function changed at one place. -/
def upd (g : Key → V) (k : Key) (w : V) : Key → V := fun x => if x = k then w else g x

set_option maxRecDepth 100000 in
theorem ign_dqnPer (env : Env V) (g : Key → V) (w : V) (extra : Key → Option V) :
    init .dqnPer env 2 (conf .dqnPer g extra) = init .dqnPer env 2 (conf .dqnPer (upd g .mode w) extra) := by cbv

set_option maxRecDepth 100000 in
theorem ign_rainbow (env : Env V) (g : Key → V) (w : V) (extra : Key → Option V) (k : Key) (h : k ∈ ignored .rainbow) :
    init .rainbow env 2 (conf .rainbow g extra) = init .rainbow env 2 (conf .rainbow (upd g k w) extra) := by
  simp only [ignored, List.mem_cons, List.not_mem_nil, or_false] at h
  rcases h with rfl | rfl | rfl | rfl <;> cbv

set_option maxRecDepth 100000 in
theorem ign_trpo (env : Env V) (g : Key → V) (w : V) (extra : Key → Option V) :
    init .trpo env 2 (conf .trpo g extra) = init .trpo env 2 (conf .trpo (upd g .actorUpdateTimes w) extra) := by cbv

set_option maxRecDepth 100000 in
theorem ign_ddpgApex (l : Bool) (g : Key → V) (w : V) (extra : Key → Option V) :
    initLearnersWith l Algo.ddpgApex.chain .apexGroupName .apexMembers true 4 (conf .ddpgApex g extra) =
    initLearnersWith l Algo.ddpgApex.chain .apexGroupName .apexMembers true 4 (conf .ddpgApex (upd g .learningRate w) extra) := by
  cases l <;> cbv

theorem init_ignored (al : Algo) (env : Env V) (c c' : Key → Option V) (hc : Complete al c) (hc' : Complete al c') (k : Key)
    (hk : k ∈ ignored al) (hd : ∀ k', k' ≠ k → c k' = c' k') : init al env (arity al) c = init al env (arity al) c' := by
  have hkk : k ∈ al.keys := by
    cases al <;> simp only [ignored, List.mem_cons, List.not_mem_nil, or_false] at hk <;>
      first
      | (subst hk; decide)
      | (rcases hk with rfl | rfl | rfl | rfl <;> decide)
  obtain ⟨g, hg⟩ := conf_of_complete al c hc
  obtain ⟨w, hw⟩ := Option.isSome_iff_exists.mp (hc'.1 k hkk)
  have hg' : c' = conf al (upd g k w) c := by
    funext x
    by_cases hx : x = k
    · rw [hx, conf_key al _ c k hkk, hw]
      simp [upd]
    · rw [← hd x hx, hg]
      unfold conf
      by_cases h1 : x ∈ al.keys
      · simp only [if_pos h1, upd, if_neg hx]
      · simp only [if_neg h1]
        by_cases h2 : x ∈ slots al
        · simp only [if_pos h2]
        · simp only [if_neg h2]
          exact congrFun hg x
  rw [hg', hg]
  have : conf al (upd g k w) (conf al g c) = conf al (upd g k w) c := by rw [← hg]
  rw [this]
  cases al <;> simp only [ignored, List.mem_cons, List.not_mem_nil, or_false] at hk
  case dqnPer => subst hk; exact ign_dqnPer env g w c
  case rainbow => exact ign_rainbow env g w c k (by simpa [ignored] using hk)
  case trpo => subst hk; exact ign_trpo env g w c
  case ddpgApex =>
    subst hk
    have hl := conf_key .ddpgApex g c .learnerProcessNumber (by decide)
    have hl' := conf_key .ddpgApex (upd g .learningRate w) c .learnerProcessNumber (by decide)
    have e : upd g .learningRate w .learnerProcessNumber = g .learnerProcessNumber := rfl
    rw [e] at hl'
    show initLearners _ _ _ _ _ _ _ = initLearners _ _ _ _ _ _ _
    rw [initLearners_with env Algo.ddpgApex.chain .apexGroupName .apexMembers true (arity .ddpgApex) _ _ hl,
      initLearners_with env Algo.ddpgApex.chain .apexGroupName .apexMembers true (arity .ddpgApex) _ _ hl']
    exact ign_ddpgApex _ g w c

end Machin.Frames
