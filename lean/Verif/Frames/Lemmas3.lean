import Verif.Frames.Lemmas2
import Verif.Frames.Eval

/-!
# Lemmas on arguments of constructors
-/

namespace Machin.Frames

open Machin

variable {V : Type}

/-- `init` with its decisions as parameters. -/
def initWith (al : Algo) (env : Env V) (l ppo f : Bool) (n : Nat) (c : Key → Option V) : Except Err (Frame V) :=
  match al with
  | .dqnApex | .ddpgApex => initLearnersWith l al.chain .apexGroupName .apexMembers true n c
  | .impala => initLearnersWith l al.chain .impalaGroupName .impalaMembers false n c
  | .gail => initGailWith ppo f n c
  | al => init al env n c

theorem init_with (al : Algo) (env : Env V) (n : Nat) (c : Key → Option V) (g : Key → V) (hg : ∀ k ∈ al.keys, c k = some (g k)) (ppo : Bool)
    (hp : al = .gail → env.policyKind (g .constrainedPolicyOptimization) = some ppo) :
    init al env n c = initWith al env (decide (env.rank < env.number (g .learnerProcessNumber))) ppo
      (env.isFile (g .expertTrajectoryPath)) n c := by
  cases al
  case dqnApex => exact initLearners_with env _ _ _ _ n c _ (hg .learnerProcessNumber (by decide))
  case ddpgApex => exact initLearners_with env _ _ _ _ n c _ (hg .learnerProcessNumber (by decide))
  case impala => exact initLearners_with env _ _ _ _ n c _ (hg .learnerProcessNumber (by decide))
  case gail =>
    exact initGail_with env n c _ _ ppo (hg .constrainedPolicyOptimization (by decide)) (hp rfl) (hg .expertTrajectoryPath (by decide))
  all_goals rfl

theorem args_all (al : Algo) (env : Env V) (l ppo f : Bool) (g : Key → V) (extra : Key → Option V) :
    (initWith al env l ppo f (arity al) (conf al g extra)).map (args al (builtNames al g)) =
      .ok (wanted al g (decide (al ∈ withRoles) && l) ppo) := by
  cases al
  case dqnApex => exact args_dqnApex l g extra
  case ddpgApex => exact args_ddpgApex l g extra
  case impala => exact args_impala l g extra
  case gail => exact args_gail ppo f g extra
  case dqn => exact args_dqn env g extra
  case dqnPer => exact args_dqnPer env g extra
  case rainbow => exact args_rainbow env g extra
  case ddpg => exact args_ddpg env g extra
  case hddpg => exact args_hddpg env g extra
  case td3 => exact args_td3 env g extra
  case ddpgPer => exact args_ddpgPer env g extra
  case a2c => exact args_a2c env g extra
  case a3c => exact args_a3c env g extra
  case ppo => exact args_ppo env g extra
  case trpo => exact args_trpo env g extra
  case sac => exact args_sac env g extra
  case ars => exact args_ars env g extra
  case maddpg => exact args_maddpg env g extra

theorem fix_all (al : Algo) (env : Env V) (l ppo f : Bool) (g : Key → V) (extra : Key → Option V) :
    (initWith al env l ppo f (arity al) (conf al g extra)).map (fun fr => fr.attrs.map (fix al g)) =
    (initWith al env l ppo f (arity al) (conf al g extra)).map (fun fr => fr.attrs) := by
  cases al
  case dqnApex => exact fix_dqnApex l g extra
  case ddpgApex => exact fix_ddpgApex l g extra
  case impala => exact fix_impala l g extra
  case gail => exact fix_gail ppo f g extra
  case dqn => exact fix_dqn env g extra
  case dqnPer => exact fix_dqnPer env g extra
  case rainbow => exact fix_rainbow env g extra
  case ddpg => exact fix_ddpg env g extra
  case hddpg => exact fix_hddpg env g extra
  case td3 => exact fix_td3 env g extra
  case ddpgPer => exact fix_ddpgPer env g extra
  case a2c => exact fix_a2c env g extra
  case a3c => exact fix_a3c env g extra
  case ppo => exact fix_ppo env g extra
  case trpo => exact fix_trpo env g extra
  case sac => exact fix_sac env g extra
  case ars => exact fix_ars env g extra
  case maddpg => exact fix_maddpg env g extra

theorem conf_of (al : Algo) (c : Key → Option V) (g : Key → V) (hg : ∀ k ∈ al.keys, c k = some (g k)) (hs : ∀ k ∈ slots al, c k = none) :
    c = conf al g c := by
  funext k
  unfold conf
  by_cases h1 : k ∈ al.keys
  · rw [if_pos h1]; exact hg k h1
  · rw [if_neg h1]
    by_cases h2 : k ∈ slots al
    · rw [if_pos h2]; exact hs k h2
    · rw [if_neg h2]

theorem init_args (al : Algo) (env : Env V) (c : Key → Option V) (g : Key → V) (hg : ∀ k ∈ al.keys, c k = some (g k))
    (hs : ∀ k ∈ slots al, c k = none) (ppo : Bool) (hp : al = .gail → env.policyKind (g .constrainedPolicyOptimization) = some ppo) :
    ∃ fr, init al env (arity al) c = .ok fr ∧
      (∀ k ∈ handed al, fr.attrs.lookup k = some (.conf (g k))) ∧
      (∀ x ∈ built al g (decide (al ∈ withRoles) && decide (env.rank < env.number (g .learnerProcessNumber))) ppo,
        fr.attrs.lookup x.1 = some x.2) ∧
      ∀ k w, k ∈ al.keys → (k, .conf w) ∈ fr.attrs → w = g k := by
  have hc := conf_of al c g hg hs
  rw [init_with al env (arity al) c g hg ppo hp, hc]
  have h1 := args_all al env (decide (env.rank < env.number (g .learnerProcessNumber))) ppo (env.isFile (g .expertTrajectoryPath)) g c
  have h2 := fix_all al env (decide (env.rank < env.number (g .learnerProcessNumber))) ppo (env.isFile (g .expertTrajectoryPath)) g c
  obtain ⟨fr, e1, e2⟩ := of_map h1
  rw [e1] at h2
  have h3 : fr.attrs.map (fix al g) = fr.attrs := by simpa [Except.map] using h2
  obtain ⟨e3, e4⟩ := Prod.mk.inj e2
  refine ⟨fr, e1, ?_, ?_, ?_⟩
  · intro k hk
    exact (Prod.mk.inj (List.map_inj_left.mp e3 k hk)).2
  · intro x hx
    have hb : builtNames al g =
        (built al g (decide (al ∈ withRoles) && decide (env.rank < env.number (g .learnerProcessNumber))) ppo).map Prod.fst := by
      unfold builtNames built
      generalize (decide (al ∈ withRoles) && decide (env.rank < env.number (g .learnerProcessNumber))) = d
      cases al <;> simp
    rw [hb, List.map_map] at e4
    exact (Prod.mk.inj (List.map_inj_left.mp e4 x hx)).2
  · intro k w hk hm
    have h4 : fr.attrs.map (fix al g) = fr.attrs.map id := by rw [h3, List.map_id]
    have h5 := List.map_inj_left.mp h4 _ hm
    unfold fix at h5
    rw [if_pos hk] at h5
    have := (Prod.mk.inj h5).2
    exact (Val.conf.inj this).symm

theorem bindPos_error (ps : List Key) (as : List (Val V)) (kw : Key → Option (Val V)) (e : Err) (h : bindPos ps as kw = .error e) :
    e = .type := by
  induction ps generalizing as with
  | nil => cases as <;> cases h
  | cons p ps ih =>
    cases as with
    | nil =>
      unfold bindPos at h
      cases hk : kw p with
      | none => simp only [hk] at h; exact (Except.error.inj h).symm
      | some v =>
        simp only [hk] at h
        cases hb : bindPos ps [] kw with
        | error e' =>
          simp only [hb] at h
          cases h
          exact ih [] hb
        | ok b => simp only [hb] at h; cases h
    | cons a as =>
      unfold bindPos at h
      cases hk : kw p with
      | some v => simp only [hk] at h; exact (Except.error.inj h).symm
      | none =>
        simp only [hk] at h
        cases hb : bindPos ps as kw with
        | error e' =>
          simp only [hb] at h
          cases h
          exact ih as hb
        | ok b => simp only [hb] at h; cases h

theorem bindPos_ok (ps : List Key) (as : List (Val V)) (kw : Key → Option (Val V)) (b : List (Key × Val V)) (h : bindPos ps as kw = .ok b) :
    ∀ (i : Nat) (p : Key), ps[i]? = some p → (i < as.length → kw p = none) ∧ (as.length ≤ i → kw p ≠ none) := by
  induction ps generalizing as b with
  | nil => intro i p hi; simp at hi
  | cons q ps ih =>
    intro i p hi
    cases as with
    | nil =>
      unfold bindPos at h
      refine ⟨fun hl => absurd hl (Nat.not_lt_zero i), fun _ => ?_⟩
      cases hk : kw q with
      | none => simp only [hk] at h; cases h
      | some v =>
        simp only [hk] at h
        cases hb : bindPos ps [] kw with
        | error e' => simp only [hb] at h; cases h
        | ok b' =>
          cases i with
          | zero => simp at hi; subst hi; rw [hk]; exact Option.some_ne_none v
          | succ i => exact (ih [] b' hb i p (by simpa using hi)).2 (Nat.zero_le i)
    | cons a as =>
      unfold bindPos at h
      cases hk : kw q with
      | some v => simp only [hk] at h; cases h
      | none =>
        simp only [hk] at h
        cases hb : bindPos ps as kw with
        | error e' => simp only [hb] at h; cases h
        | ok b' =>
          cases i with
          | zero => simp at hi; subst hi; exact ⟨fun _ => hk, fun hl => absurd hl (by simp)⟩
          | succ i =>
            have := ih as b' hb i p (by simpa using hi)
            exact ⟨fun hl => this.1 (by simpa using hl), fun hl => this.2 (by simpa using hl)⟩

/-- A constructor whose positional parameters do not fit the arguments fails with a TypeError. -/
theorem construct_mismatch (l : Level) (ls : List Level) (as : List (Val V)) (kw : Key → Option (Val V)) (i : Nat) (p : Key)
    (hp : l.pos[i]? = some p) (h : (i < as.length ∧ kw p ≠ none) ∨ (as.length ≤ i ∧ kw p = none)) :
    construct (l :: ls) as kw = .error .type := by
  unfold construct bind
  cases hb : bindPos l.pos as kw with
  | error e => rw [bindPos_error _ _ _ _ hb]
  | ok b =>
    have := bindPos_ok _ _ _ _ hb i p hp
    rcases h with ⟨h1, h2⟩ | ⟨h1, h2⟩
    · exact absurd (this.1 h1) h2
    · exact absurd h2 (this.2 h1)

end Machin.Frames
