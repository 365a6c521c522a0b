import Verif.Step.LemmasOne
import Mathlib.Algebra.Group.Int.Defs

/-! # Properties of update programs: C150 -/

namespace Machin.Step

variable {V O : Type} [AddMonoid V]

/-! ### C150: every optimizer step uses the gradient of its own loss -/


/-- C150 for DDPG, HDDPG and DDPG-PER: whatever gradients earlier passes left behind, the critic makes a step along the clipped gradient of the value loss at
the old parameters, the actor makes one along the gradient of the policy loss with the new critic, and targets follow the new networks; networks not asked
for keep parameters and optimizer states. -/
theorem C150_ddpg (env : Env Net Loss V O) (hv : env.deps .value = [.critic]) (hp : env.deps .policy = [.actor, .critic]) (sch : Scheme) (f : Flags)
    (hs : f.target = true → sch ≠ .neither ∧ sch ≠ .steps 0) (s : St Net Loss V O) :
    let c := trained env s f.value .critic .value s.par
    let θ := set s.par .critic c
    let a := trained env s f.policy .actor .policy θ
    ∃ s', run env (ddpg sch f) s = .ok s' ∧
      (∀ n, s'.par n = match n with
        | .critic => c
        | .actor => a
        | .criticTarget => followed env sch f.target s.counter (s.par .criticTarget) c
        | .actorTarget => followed env sch f.target s.counter (s.par .actorTarget) a
        | n => s.par n) ∧
      ∀ n, s'.opt n = match n with
        | .critic => trainedOpt env s f.value .critic .value s.par
        | .actor => trainedOpt env s f.policy .actor .policy θ
        | n => s.opt n := by
  intro c θ a
  obtain ⟨s1, h1, p1, o1, c1, -⟩ := run_one env f.value .critic .value true (by simp [hv]) s
  obtain ⟨s2, h2, p2, o2, c2, -⟩ := run_one env f.policy .actor .policy true (by simp [hp]) s1
  obtain ⟨s3, h3, p3, o3, -⟩ := run_targets env sch true f.target [(.actorTarget, .actor), (.criticTarget, .critic)] s2 hs
  have e1 : s1.par = θ := p1
  have ha : trained env s1 f.policy .actor .policy s1.par = a := by
    simp only [trained, o1, e1, a]
    simp [set, θ]
  have ho : trainedOpt env s1 f.policy .actor .policy s1.par = trainedOpt env s f.policy .actor .policy θ := by
    simp only [trainedOpt, o1, e1]
    simp [set, θ]
  refine ⟨s3, ?_, ?_, ?_⟩
  · simp only [ddpg, List.append_assoc, List.cons_append, List.nil_append]
    rw [h1, h2, h3]
  · intro n
    rw [p3, c2, c1, p2, ha, e1]
    unfold moved followed
    cases ht : f.target with
    | false => cases n <;> simp [set, θ]
    | true =>
      cases sch with
      | neither => exact absurd rfl (hs ht).1
      | rate => cases n <;> simp [set, follow, θ]
      | steps k => by_cases hk : (s.counter + 1) % k = 0 <;> cases n <;> simp [set, follow, hk, θ]
  · intro n
    rw [o3, o2, ho, o1]
    cases n <;> simp [set]

/-- C150 for TD3: as for DDPG, with two critics. -/
theorem C150_td3 (env : Env Net Loss V O) (hv : env.deps .value = [.critic]) (hv2 : env.deps .value2 = [.critic2]) (hp : env.deps .policy = [.actor, .critic])
    (sch : Scheme) (f : Flags) (hs : f.target = true → sch ≠ .neither ∧ sch ≠ .steps 0) (s : St Net Loss V O) :
    let c := trained env s f.value .critic .value s.par
    let c2 := trained env s f.value .critic2 .value2 s.par
    let θ := set (set s.par .critic c) .critic2 c2
    let a := trained env s f.policy .actor .policy θ
    ∃ s', run env (td3 sch f) s = .ok s' ∧
      (∀ n, s'.par n = match n with
        | .critic => c
        | .critic2 => c2
        | .actor => a
        | .criticTarget => followed env sch f.target s.counter (s.par .criticTarget) c
        | .critic2Target => followed env sch f.target s.counter (s.par .critic2Target) c2
        | .actorTarget => followed env sch f.target s.counter (s.par .actorTarget) a
        | n => s.par n) ∧
      ∀ n, s'.opt n = match n with
        | .critic => trainedOpt env s f.value .critic .value s.par
        | .critic2 => trainedOpt env s f.value .critic2 .value2 s.par
        | .actor => trainedOpt env s f.policy .actor .policy θ
        | n => s.opt n := by
  intro c c2 θ a
  obtain ⟨s1, h1, p1, o1, c1, -⟩ := run_two env f.value f.value .critic .critic2 .value .value2 false (by simp) (by simp [hv]) (by simp [hv2])
    (by simp [hv2]) s
  obtain ⟨s2, h2, p2, o2, cc2, -⟩ := run_one env f.policy .actor .policy false (by simp [hp]) s1
  obtain ⟨s3, h3, p3, o3, -⟩ := run_targets env sch true f.target [(.actorTarget, .actor), (.criticTarget, .critic), (.critic2Target, .critic2)] s2 hs
  have e1 : s1.par = θ := p1
  have ha : trained env s1 f.policy .actor .policy s1.par = a := by
    simp only [trained, o1, e1, a]
    simp [set, θ]
  have ho : trainedOpt env s1 f.policy .actor .policy s1.par = trainedOpt env s f.policy .actor .policy θ := by
    simp only [trainedOpt, o1, e1]
    simp [set, θ]
  refine ⟨s3, ?_, ?_, ?_⟩
  · simp only [td3, List.append_assoc, List.cons_append, List.nil_append]
    rw [h1, h2, h3]
  · intro n
    rw [p3, cc2, c1, p2, ha, e1]
    unfold moved followed
    cases ht : f.target with
    | false => cases n <;> simp [set, θ]
    | true =>
      cases sch with
      | neither => exact absurd rfl (hs ht).1
      | rate => cases n <;> simp [set, follow, θ]
      | steps k => by_cases hk : (s.counter + 1) % k = 0 <;> cases n <;> simp [set, follow, hk, θ]
  · intro n
    rw [o3, o2, ho, o1]
    cases n <;> simp [set]

/-- C150 for SAC: the actor is trained against both new critics; the entropy weight makes a step along the gradient of its loss with the log probabilities of
the old actor, not clipped by norm, and is clamped. -/
theorem C150_sac (env : Env Net Loss V O) (hv : env.deps .value = [.critic]) (hv2 : env.deps .value2 = [.critic2])
    (hp : env.deps .policy = [.actor, .critic, .critic2]) (hal : env.deps .alpha = [.alpha])
    (sch : Scheme) (f : Flags) (entropy : Bool) (hs : f.target = true → sch ≠ .neither ∧ sch ≠ .steps 0) (s : St Net Loss V O) :
    let c := trained env s f.value .critic .value s.par
    let c2 := trained env s f.value .critic2 .value2 s.par
    let θ := set (set s.par .critic c) .critic2 c2
    let r := env.step .alpha (s.par .alpha) (env.grad .alpha θ .alpha) (s.opt .alpha)
    ∃ s', run env (sac sch f entropy) s = .ok s' ∧
      (∀ n, s'.par n = match n with
        | .critic => c
        | .critic2 => c2
        | .actor => trained env s f.policy .actor .policy θ
        | .criticTarget => followed env sch f.target s.counter (s.par .criticTarget) c
        | .critic2Target => followed env sch f.target s.counter (s.par .critic2Target) c2
        | .alpha => if entropy then env.clamp r.1 else s.par .alpha
        | n => s.par n) ∧
      ∀ n, s'.opt n = match n with
        | .critic => trainedOpt env s f.value .critic .value s.par
        | .critic2 => trainedOpt env s f.value .critic2 .value2 s.par
        | .actor => trainedOpt env s f.policy .actor .policy θ
        | .alpha => if entropy then r.2 else s.opt .alpha
        | n => s.opt n := by
  intro c c2 θ r
  obtain ⟨s1, h1, p1, o1, c1, -⟩ := run_two env f.value f.value .critic .critic2 .value .value2 false (by simp) (by simp [hv]) (by simp [hv2])
    (by simp [hv2]) s
  obtain ⟨s2, h2, p2, o2, cc2, -, g2, -⟩ := run_one env f.policy .actor .policy false (by simp [hp]) s1
  obtain ⟨s3, h3, p3, o3, g3, -⟩ := run_targets env sch true f.target [(.criticTarget, .critic), (.critic2Target, .critic2)] s2 hs
  have e1 : s1.par = θ := p1
  have ha : trained env s1 f.policy .actor .policy s1.par = trained env s f.policy .actor .policy θ := by
    simp only [trained, o1, e1]
    simp [set, θ]
  have ho : trainedOpt env s1 f.policy .actor .policy s1.par = trainedOpt env s f.policy .actor .policy θ := by
    simp only [trainedOpt, o1, e1]
    simp [set, θ]
  have hpar : ∀ n, s3.par n = match n with
        | .critic => c
        | .critic2 => c2
        | .actor => trained env s f.policy .actor .policy θ
        | .criticTarget => followed env sch f.target s.counter (s.par .criticTarget) c
        | .critic2Target => followed env sch f.target s.counter (s.par .critic2Target) c2
        | n => s.par n := by
    intro n
    rw [p3, cc2, c1, p2, ha, e1]
    unfold moved followed
    cases ht : f.target with
    | false => cases n <;> simp [set, θ]
    | true =>
      cases sch with
      | neither => exact absurd rfl (hs ht).1
      | rate => cases n <;> simp [set, follow, θ]
      | steps k => by_cases hk : (s.counter + 1) % k = 0 <;> cases n <;> simp [set, follow, hk, θ]
  have hopt : ∀ n, s3.opt n = match n with
        | .critic => trainedOpt env s f.value .critic .value s.par
        | .critic2 => trainedOpt env s f.value .critic2 .value2 s.par
        | .actor => trainedOpt env s f.policy .actor .policy θ
        | n => s.opt n := by
    intro n
    rw [o3, o2, ho, o1]
    cases n <;> simp [set]
  have hprog : run env (sac sch f entropy) s = run env
      (if entropy then [.forwardFrom .alpha .policy, .zero .alpha, .backward .alpha false, .step .alpha, .clamp .alpha] else []) s3 := by
    simp only [sac, List.append_assoc, List.cons_append, List.nil_append]
    rw [h1, h2, run_append env _ _ s2 s3 h3]
  rw [hprog]
  cases entropy with
  | false =>
    refine ⟨s3, rfl, ?_, ?_⟩
    · intro n; rw [hpar n]; cases n <;> simp
    · intro n; rw [hopt n]; cases n <;> simp
  | true =>
    have hg : s3.graph .policy = some ⟨θ, s1.version⟩ := by rw [g3, g2, e1]; simp [set]
    have hθ : (fun n => if n ∈ [Net.alpha] then s3.par n else θ n) = θ := by
      funext n
      cases n <;> simp [hpar, θ, set]
    simp only [if_true, run, exec, hg, set_same, hal, hθ]
    simp only [List.all_cons, List.all_nil, decide_true, Bool.and_true, if_true]
    refine ⟨_, rfl, ?_, ?_⟩
    · intro n
      cases n <;> simp [set, hpar, hopt, r]
    · intro n
      cases n <;> simp [set, hpar, hopt, r]

/-- C150 for DQN with double estimation, DQN-PER and RAINBOW: the Q network makes a step along the clipped gradient of its loss, the target follows. -/
theorem C150_double (env : Env Net Loss V O) (hv : env.deps .value = [.qnet]) (sch : Scheme) (f : Flags)
    (hs : f.target = true → sch ≠ .neither ∧ sch ≠ .steps 0) (s : St Net Loss V O) :
    let q := trained env s f.value .qnet .value s.par
    ∃ s', run env (dqn .double sch f) s = .ok s' ∧
      (∀ n, s'.par n = match n with
        | .qnet => q
        | .qnetTarget => followed env sch f.target s.counter (s.par .qnetTarget) q
        | n => s.par n) ∧
      ∀ n, s'.opt n = match n with
        | .qnet => trainedOpt env s f.value .qnet .value s.par
        | n => s.opt n := by
  intro q
  obtain ⟨s1, h1, p1, o1, c1, -⟩ := run_one env f.value .qnet .value true (by simp [hv]) s
  obtain ⟨s2, h2, p2, o2, -⟩ := run_targets env sch true f.target [(.qnetTarget, .qnet)] s1 hs
  refine ⟨s2, ?_, ?_, ?_⟩
  · simp only [dqn, List.append_assoc, List.cons_append, List.nil_append]
    rw [h1, h2]
  · intro n
    rw [p2, c1, p1]
    unfold moved followed
    cases ht : f.target with
    | false => cases n <;> simp [set, q]
    | true =>
      cases sch with
      | neither => exact absurd rfl (hs ht).1
      | rate => cases n <;> simp [set, follow, q]
      | steps k => by_cases hk : (s.counter + 1) % k = 0 <;> cases n <;> simp [set, follow, hk, q]
  · intro n
    rw [o2, o1]
    cases n <;> simp [set]

/-- C150 for the other modes of DQN: "vanilla" has no target; "fixed_target" follows softly, and fails if a number of steps was given for it. -/
theorem C150_modes (env : Env Net Loss V O) (hv : env.deps .value = [.qnet]) (f : Flags) (s : St Net Loss V O) :
    let q := trained env s f.value .qnet .value s.par
    (∀ sch, ∃ s', run env (dqn .vanilla sch f) s = .ok s' ∧ (∀ n, s'.par n = match n with
        | .qnet => q
        | n => s.par n)) ∧
    (∃ s', run env (dqn .fixedTarget .rate f) s = .ok s' ∧ (∀ n, s'.par n = match n with
        | .qnet => q
        | .qnetTarget => if f.target then env.mix (s.par .qnetTarget) q else s.par .qnetTarget
        | n => s.par n)) ∧
    ∀ k, f.target = true → run env (dqn .fixedTarget (.steps k) f) s = .error .type := by
  intro q
  obtain ⟨s1, h1, p1, -⟩ := run_one env f.value .qnet .value false (by simp [hv]) s
  obtain ⟨s2, h2, p2, -⟩ := run_one env f.value .qnet .value true (by simp [hv]) s
  refine ⟨?_, ?_, ?_⟩
  · intro sch
    refine ⟨s1, ?_, ?_⟩
    · have := h1 []
      simpa only [dqn, List.append_nil, List.cons_append, List.nil_append, run] using this
    · intro n
      rw [p1]
      cases n <;> simp [set, q]
  · obtain ⟨s3, h3, p3, -⟩ := run_targets env .rate false f.target [(.qnetTarget, .qnet)] s2 (fun _ => ⟨by simp, by simp⟩)
    refine ⟨s3, ?_, ?_⟩
    · simp only [dqn, List.cons_append, List.nil_append]
      rw [h2, h3]
    · intro n
      rw [p3, p2]
      unfold moved
      cases f.target <;> cases n <;> simp [set, follow, q]
  · intro k ht
    simp only [dqn, List.cons_append, List.nil_append, ht, if_true]
    rw [h2]
    simp [run, exec]

/-- Training of one network on a sequence of losses, each one computed at the parameters reached before. -/
def descend (env : Env Net Loss V O) (b : Bool) (n : Net) (x : (Net → V) × (Net → O)) (ls : List Loss) : (Net → V) × (Net → O) :=
  ls.foldl (fun x l => if b then (set x.1 n (env.step n (x.1 n) (env.clip (env.grad l x.1 n)) (x.2 n)).1,
    set x.2 n (env.step n (x.1 n) (env.clip (env.grad l x.1 n)) (x.2 n)).2) else x) x

theorem run_loop (env : Env Net Loss V O) (b hook : Bool) (n : Net) : ∀ (ls : List Loss) (s : St Net Loss V O), (∀ l ∈ ls, n ∈ env.deps l) →
    ∃ s', (∀ rest, run env ((ls.flatMap fun l => .forward l :: trainIf b n l hook) ++ rest) s = run env rest s') ∧
      (s'.par, s'.opt) = descend env b n (s.par, s.opt) ls ∧ s'.counter = s.counter ∧
      s'.calls = s.calls ++ if b then List.replicate ls.length hook else []
  | [], s, _ => ⟨s, fun _ => rfl, rfl, rfl, by simp⟩
  | l :: ls, s, h => by
    obtain ⟨s1, h1, p1, o1, c1, k1, -⟩ := run_one env b n l hook (h l (by simp)) s
    obtain ⟨s2, h2, x2, c2, k2⟩ := run_loop env b hook n ls s1 fun m hm => h m (by simp [hm])
    refine ⟨s2, fun rest => ?_, ?_, by rw [c2, c1], ?_⟩
    · simp only [List.flatMap_cons, List.cons_append, List.append_assoc]
      rw [h1, h2]
    · rw [x2]
      have : (s1.par, s1.opt) = after env b n l s.par (s.par, s.opt) := by rw [after_eq, p1, o1]
      rw [this]
      rfl
    · rw [k2, k1]
      cases b <;> simp [List.replicate_succ]

/-- C150 for A2C and PPO: the actor is trained on its losses one after the other, each one computed with the actor reached before, then the critic likewise;
nothing else changes. -/
theorem C150_a2c (env : Env Net Loss V O) (hv : ∀ i, env.deps (.valueAt i) = [.critic]) (hp : ∀ i, env.deps (.policyAt i) = [.actor]) (hook : Bool)
    (actorTimes criticTimes : Nat) (f : Flags) (s : St Net Loss V O) :
    ∃ s', run env (a2c hook actorTimes criticTimes f) s = .ok s' ∧
      (s'.par, s'.opt) = descend env f.value .critic (descend env f.policy .actor (s.par, s.opt) ((List.range actorTimes).map .policyAt))
        ((List.range criticTimes).map .valueAt) := by
  obtain ⟨s1, h1, x1, -⟩ := run_loop env f.policy hook .actor ((List.range actorTimes).map .policyAt) s (by simp [hp])
  obtain ⟨s2, h2, x2, -⟩ := run_loop env f.value hook .critic ((List.range criticTimes).map .valueAt) s1 (by simp [hv])
  refine ⟨s2, ?_, by rw [x2, x1]⟩
  have e : a2c hook actorTimes criticTimes f =
      (((List.range actorTimes).map Loss.policyAt).flatMap fun l => .forward l :: trainIf f.policy .actor l hook) ++
      ((((List.range criticTimes).map Loss.valueAt).flatMap fun l => .forward l :: trainIf f.value .critic l hook) ++ []) := by
    simp [a2c, List.flatMap_map]
  rw [e, h1, h2]
  rfl

/-- C150 for GAIL, which completes the statement: the discriminator is trained on its losses, one after the other. -/
def C150_full : Prop :=
  ∀ (env : Env Net Loss Int Nat) (discrim : Bool) (discrimTimes actorTimes criticTimes : Nat) (f : Flags) (s s' : St Net Loss Int Nat),
    (∀ i, env.deps (.discrim i) = [.discriminator]) → (∀ i, env.deps (.valueAt i) = [.critic]) → (∀ i, env.deps (.policyAt i) = [.actor]) →
    run env (gail discrim discrimTimes actorTimes criticTimes f) s = .ok s' →
    s'.par .discriminator = (descend env discrim .discriminator (s.par, s.opt) ((List.range discrimTimes).map .discrim)).1 .discriminator

/-- What the block of the discriminator does: steps of its optimizer, which move the actor along the gradient that was left there. -/
def stray (env : Env Net Loss V O) (b : Bool) (g : V) (x : (Net → V) × (Net → O)) : Nat → (Net → V) × (Net → O)
  | 0 => x
  | k + 1 => stray env b g (if b then (set x.1 .actor (env.step .discriminator (x.1 .actor) g (x.2 .discriminator)).1,
      set x.2 .discriminator (env.step .discriminator (x.1 .actor) g (x.2 .discriminator)).2) else x) k

theorem run_stray (env : Env Net Loss V O) (hd : ∀ i, env.deps (.discrim i) = [.discriminator]) (b : Bool) : ∀ (l : List Nat) (s : St Net Loss V O),
    ∃ s', (∀ rest, run env ((l.flatMap fun i => .forward (.discrim i) ::
      if b then [.zero .discriminator, .backward (.discrim i) true, .clip .discriminator, .stepOf .discriminator .actor] else []) ++ rest) s = run env rest s') ∧
      (s'.par, s'.opt) = stray env b (s.grad .actor) (s.par, s.opt) l.length
  | [], s => ⟨s, fun _ => rfl, rfl⟩
  | i :: l, s => by
    cases b with
    | false =>
      obtain ⟨s2, h2, x2⟩ := run_stray env hd false l { s with graph := set s.graph (.discrim i) (some ⟨s.par, s.version⟩) }
      refine ⟨s2, fun rest => ?_, x2⟩
      rw [← h2]
      rfl
    | true =>
      let s1 : St Net Loss V O := { s with
        graph := set s.graph (.discrim i) (some ⟨s.par, s.version⟩)
        par := set s.par .actor (env.step .discriminator (s.par .actor) (s.grad .actor) (s.opt .discriminator)).1
        opt := set s.opt .discriminator (env.step .discriminator (s.par .actor) (s.grad .actor) (s.opt .discriminator)).2
        version := bump s.version [.actor]
        calls := s.calls ++ [true]
        grad := set s.grad .discriminator (env.clip (env.grad (.discrim i) s.par .discriminator)) }
      obtain ⟨s2, h2, x2⟩ := run_stray env hd true l s1
      refine ⟨s2, fun rest => ?_, ?_⟩
      · rw [← h2]
        have e : (fun n => if n = Net.discriminator then set s.grad .discriminator 0 n + env.grad (.discrim i) s.par n else set s.grad .discriminator 0 n) =
            set s.grad .discriminator (env.grad (.discrim i) s.par .discriminator) := by
          funext n
          by_cases hn : n = .discriminator <;> simp [set, hn]
        have e2 : set (set s.grad Net.discriminator (env.grad (.discrim i) s.par .discriminator)) .discriminator
            (env.clip (env.grad (.discrim i) s.par .discriminator)) = set s.grad .discriminator (env.clip (env.grad (.discrim i) s.par .discriminator)) := by
          funext n
          by_cases hn : n = .discriminator <;> simp [set, hn]
        simp only [List.flatMap_cons, if_true, List.cons_append, List.nil_append, run, exec, set_same, hd, List.all_cons, List.all_nil,
          decide_true, Bool.and_true, List.mem_singleton, e, e2]
        rw [show set s.grad Net.discriminator (env.clip (env.grad (.discrim i) s.par .discriminator)) .actor = s.grad .actor by simp [set]]
      · rw [x2]
        simp [stray, s1, set]

/-- C150, what holds of GAIL: the block of the discriminator moves the actor along the gradient that the update before left there, then the inner
algorithm trains actor and critic on their losses. The discriminator is not trained, which is what is missing of C150. -/
theorem C150_gail_partial (env : Env Net Loss V O) (hd : ∀ i, env.deps (.discrim i) = [.discriminator]) (hv : ∀ i, env.deps (.valueAt i) = [.critic])
    (hp : ∀ i, env.deps (.policyAt i) = [.actor]) (discrim : Bool) (discrimTimes actorTimes criticTimes : Nat) (f : Flags) (s : St Net Loss V O) :
    ∃ s', run env (gail discrim discrimTimes actorTimes criticTimes f) s = .ok s' ∧
      (s'.par, s'.opt) = descend env f.value .critic (descend env f.policy .actor
        (stray env discrim (s.grad .actor) (s.par, s.opt) discrimTimes) ((List.range actorTimes).map .policyAt)) ((List.range criticTimes).map .valueAt) := by
  obtain ⟨s1, h1, x1⟩ := run_stray env hd discrim (List.range discrimTimes) s
  obtain ⟨s2, h2, x2⟩ := C150_a2c env hv hp false actorTimes criticTimes f s1
  refine ⟨s2, ?_, by rw [x2, x1, List.length_range]⟩
  rw [gail, h1, h2]

theorem descend_other (env : Env Net Loss V O) (b : Bool) (n m : Net) (h : m ≠ n) : ∀ (ls : List Loss) (x : (Net → V) × (Net → O)),
    (descend env b n x ls).1 m = x.1 m
  | [], _ => rfl
  | l :: ls, x => by
    have := descend_other env b n m h ls (if b then (set x.1 n (env.step n (x.1 n) (env.clip (env.grad l x.1 n)) (x.2 n)).1,
      set x.2 n (env.step n (x.1 n) (env.clip (env.grad l x.1 n)) (x.2 n)).2) else x)
    rw [show descend env b n x (l :: ls) = descend env b n _ ls from rfl, this]
    cases b <;> simp [set, h]

theorem stray_other (env : Env Net Loss V O) (b : Bool) (g : V) : ∀ (k : Nat) (x : (Net → V) × (Net → O)),
    (stray env b g x k).1 .discriminator = x.1 .discriminator
  | 0, _ => rfl
  | k + 1, x => by
    rw [stray, stray_other env b g k]
    cases b <;> simp [set]

/-- The discriminator never changes. -/
theorem C150_violated_discriminator (env : Env Net Loss V O) (hd : ∀ i, env.deps (.discrim i) = [.discriminator]) (hv : ∀ i, env.deps (.valueAt i) = [.critic])
    (hp : ∀ i, env.deps (.policyAt i) = [.actor]) (discrim : Bool) (discrimTimes actorTimes criticTimes : Nat) (f : Flags) (s s' : St Net Loss V O)
    (h : run env (gail discrim discrimTimes actorTimes criticTimes f) s = .ok s') : s'.par .discriminator = s.par .discriminator := by
  obtain ⟨s1, h1, x1⟩ := C150_gail_partial env hd hv hp discrim discrimTimes actorTimes criticTimes f s
  rw [h1] at h
  simp only [Except.ok.injEq] at h
  subst h
  have := congrArg (fun x => x.1 Net.discriminator) x1
  simp only at this
  rw [this, descend_other _ _ _ _ (by decide), descend_other _ _ _ _ (by decide), stray_other]

/-- C150 for IMPALA: both losses are computed before either network is trained. -/
theorem C150_impala (env : Env Net Loss V O) (hv : env.deps .value = [.critic]) (hp : env.deps .policy = [.actor]) (f : Flags) (s : St Net Loss V O) :
    ∃ s', run env (impala f) s = .ok s' ∧
      (∀ n, s'.par n = match n with
        | .actor => trained env s f.policy .actor .policy s.par
        | .critic => trained env s f.value .critic .value s.par
        | n => s.par n) ∧
      ∀ n, s'.opt n = match n with
        | .actor => trainedOpt env s f.policy .actor .policy s.par
        | .critic => trainedOpt env s f.value .critic .value s.par
        | n => s.opt n := by
  obtain ⟨s1, h1, p1, o1, -⟩ := run_two env f.policy f.value .actor .critic .policy .value true (by simp) (by simp [hp]) (by simp [hv]) (by simp [hv]) s
  refine ⟨s1, ?_, ?_, ?_⟩
  · have := h1 []
    simpa only [impala, List.append_assoc, List.cons_append, List.nil_append, List.append_nil, run] using this
  · intro n
    rw [p1]
    cases n <;> simp [set]
  · intro n
    rw [o1]
    cases n <;> simp [set]

/-- Concrete networks: the gradient of a value loss is the parameter plus 1, that of the policy loss is the critic it is computed with; optimizers count their
steps; gradients are clipped at 50. -/
def plain : Env Net Loss Int Nat where
  grad
    | .policy, θ, .actor => θ .critic
    | .policy, _, _ => 1000
    | _, θ, n => θ n + 1
  deps
    | .value => [.critic]
    | .value2 => [.critic2]
    | .policy => [.actor, .critic]
    | .alpha => [.alpha]
    | .valueAt _ => [.critic]
    | .policyAt _ => [.actor]
    | .discrim _ => [.discriminator]
  clip g := if g > 50 then 50 else g
  step _ p g o := (p - g, o + 1)
  mix t s := t + s
  clamp a := if a < 1 then 1 else a

/-- All parameters are 10, and earlier passes left gradients 7 behind. -/
def ten : St Net Loss Int Nat := ⟨fun _ => 10, fun _ => 7, fun _ => 0, fun _ => 0, 0, fun _ => none, []⟩

/-- Parameters and optimizer states of some networks after a program. -/
def look (env : Env Net Loss Int Nat) (p : List (Cmd Net Loss)) (ns : List Net) : Except Err (List (Int × Nat)) :=
  match run env p ten with
  | .error e => .error e
  | .ok s => .ok (ns.map fun n => (s.par n, s.opt n))

example : look plain (ddpg .rate ⟨true, true, true⟩) [.critic, .actor, .criticTarget, .actorTarget, .qnet] = .ok [(-1, 1), (11, 1), (9, 0), (21, 0), (10, 0)] ∧
    look plain (ddpg (.steps 2) ⟨true, false, true⟩) [.critic, .actor, .criticTarget, .actorTarget] = .ok [(-1, 1), (10, 0), (10, 0), (10, 0)] ∧
    look plain (td3 .rate ⟨true, true, true⟩) [.critic, .critic2, .actor, .critic2Target] = .ok [(-1, 1), (-1, 1), (11, 1), (9, 0)] ∧
    look plain (sac (.steps 1) ⟨true, true, true⟩ true) [.critic, .actor, .criticTarget, .alpha] = .ok [(-1, 1), (11, 1), (-1, 0), (1, 1)] := by
  refine ⟨?_, ?_, ?_, ?_⟩ <;> decide +kernel

/-- The same with a Q network. -/
def plainQ : Env Net Loss Int Nat := { plain with deps := fun _ => [.qnet] }

example : look plainQ (dqn .double (.steps 1) ⟨true, true, true⟩) [.qnet, .qnetTarget] = .ok [(-1, 1), (-1, 0)] ∧
    look plainQ (dqn .fixedTarget .rate ⟨true, true, true⟩) [.qnet, .qnetTarget] = .ok [(-1, 1), (9, 0)] ∧
    look plainQ (dqn .fixedTarget (.steps 1) ⟨true, true, true⟩) [.qnet, .qnetTarget] = .error .type ∧
    look plainQ (dqn .vanilla .rate ⟨true, true, true⟩) [.qnet, .qnetTarget] = .ok [(-1, 1), (10, 0)] ∧
    look plain (a2c true 2 1 ⟨true, true, true⟩) [.actor, .critic] = .ok [(-1, 2), (-1, 1)] ∧
    look plain (gail true 1 0 1 ⟨true, true, true⟩) [.discriminator, .actor, .critic] = .ok [(10, 1), (3, 0), (-1, 1)] ∧
    look { plain with deps := fun | .policy => [.actor] | l => plain.deps l } (impala ⟨true, true, true⟩) [.actor, .critic] = .ok [(0, 1), (-1, 1)] := by
  refine ⟨?_, ?_, ?_, ?_, ?_, ?_, ?_⟩ <;> decide +kernel

/-- C150 does not hold of GAIL: its discriminator should go from 10 to -1. -/
theorem C150_violated : ¬ C150_full := by
  intro h
  obtain ⟨s', hr, -⟩ := C150_gail_partial plain (fun _ => rfl) (fun _ => rfl) (fun _ => rfl) true 1 0 0 ⟨true, true, true⟩ ten
  have h1 := h plain true 1 0 0 ⟨true, true, true⟩ ten s' (fun _ => rfl) (fun _ => rfl) (fun _ => rfl) hr
  rw [C150_violated_discriminator plain (fun _ => rfl) (fun _ => rfl) (fun _ => rfl) true 1 0 0 ⟨true, true, true⟩ ten s' hr] at h1
  revert h1
  decide +kernel

end Machin.Step
