import Verif.Step.Model
import Mathlib.Algebra.Group.Int.Defs

/-! # Properties of update programs: C149 -/

namespace Machin.Step

/-! ### C149: the backward function that was set does every backward pass -/

/-- The single-agent algorithms with a program. -/
inductive Alg
  | ddpg | td3 | sac (entropy : Bool) | dqn (mode : Mode) | a2c (actorTimes criticTimes : Nat) | impala
  | gail (discrim : Bool) (discrimTimes actorTimes criticTimes : Nat)

/-- Their programs. -/
def Alg.program (sch : Scheme) (f : Flags) : Alg → List (Cmd Net Loss)
  | .ddpg => Step.ddpg sch f
  | .td3 => Step.td3 sch f
  | .sac entropy => Step.sac sch f entropy
  | .dqn mode => Step.dqn mode sch f
  | .a2c i j => Step.a2c true i j f
  | .impala => Step.impala f
  | .gail d i j k => Step.gail d i j k f

section
variable {N L V O : Type} [DecidableEq N] [DecidableEq L] [Add V] [Zero V]

/-- In every run of the program that succeeds, all backward passes are made by the function that was set. -/
def Hooked (V O : Type) [Add V] [Zero V] (p : List (Cmd N L)) : Prop :=
  ∀ (env : Env N L V O) (s s' : St N L V O), run env p s = .ok s' → ∃ k, s'.calls = s.calls ++ k ∧ ∀ b ∈ k, b = true

/-- The backward passes written in a program. -/
def passes : List (Cmd N L) → List Bool
  | [] => []
  | .backward _ h :: p => h :: passes p
  | _ :: p => passes p

theorem passes_append : ∀ p q : List (Cmd N L), passes (p ++ q) = passes p ++ passes q
  | [], q => rfl
  | c :: p, q => by cases c <;> simp [passes, passes_append p q]

theorem run_calls (env : Env N L V O) : ∀ (p : List (Cmd N L)) (s s' : St N L V O), run env p s = .ok s' → s'.calls = s.calls ++ passes p
  | [], s, s', h => by
    simp only [run, Except.ok.injEq] at h
    simp [← h, passes]
  | c :: p, s, s', h => by
    simp only [run] at h
    cases hc : exec env s c with
    | error e => rw [hc] at h; cases h
    | ok s1 =>
      rw [hc] at h
      have ih := run_calls env p s1 s' h
      rw [ih]
      cases c with
      | forward l => simp only [exec, Except.ok.injEq] at hc; simp [← hc, passes]
      | zero n => simp only [exec, Except.ok.injEq] at hc; simp [← hc, passes]
      | clip n => simp only [exec, Except.ok.injEq] at hc; simp [← hc, passes]
      | step n => simp only [exec, Except.ok.injEq] at hc; simp [← hc, passes]
      | stepOf o n => simp only [exec, Except.ok.injEq] at hc; simp [← hc, passes]
      | clamp n => simp only [exec, Except.ok.injEq] at hc; simp [← hc, passes]
      | forwardFrom l l' =>
        cases hg : s.graph l' with
        | none => simp [exec, hg] at hc
        | some g => simp only [exec, hg, Except.ok.injEq] at hc; simp [← hc, passes]
      | backward l hook =>
        cases hg : s.graph l with
        | none => simp [exec, hg] at hc
        | some g =>
          simp only [exec, hg] at hc
          split at hc
          · simp only [Except.ok.injEq] at hc; simp [← hc, passes]
          · cases hc
      | targets sch tick pairs =>
        have : s1.calls = s.calls := by
          cases sch with
          | rate =>
            simp only [exec, Except.ok.injEq] at hc
            simp [← hc]
          | neither => simp [exec] at hc
          | steps k =>
            cases k with
            | zero => simp [exec] at hc
            | succ k =>
              simp only [exec] at hc
              split at hc <;> split at hc <;> (simp only [Except.ok.injEq] at hc; rw [← hc])
        simp [this, passes]

theorem hooked_of (p : List (Cmd N L)) (h : ∀ b ∈ passes p, b = true) : Hooked V O p :=
  fun env s s' hr => ⟨passes p, run_calls env p s s' hr, h⟩

omit [DecidableEq N] [DecidableEq L] [Add V] [Zero V] in
theorem passes_trainIf (b : Bool) (n : N) (l : L) (hook : Bool) : passes (trainIf b n l hook) = if b then [hook] else [] := by
  cases b <;> rfl

omit [DecidableEq N] [DecidableEq L] [Add V] [Zero V] in
theorem passes_targets (b : Bool) (sch : Scheme) (tick : Bool) (pairs : List (N × N)) :
    passes (if b then [Cmd.targets sch tick pairs] else [] : List (Cmd N L)) = [] := by cases b <;> rfl

theorem passes_loop (b : Bool) (n : N) (hook : Bool) (g : Nat → L) : ∀ l : List Nat,
    ∀ x ∈ passes (l.flatMap fun i => Cmd.forward (g i) :: trainIf b n (g i) hook), x = hook
  | [] => by simp [passes]
  | i :: l => by
    simp only [List.flatMap_cons, passes_append, passes, List.mem_append, passes_trainIf]
    rintro x (h | h)
    · cases b <;> simp_all
    · exact passes_loop b n hook g l x h

end

theorem passes_discrim (d : Bool) : ∀ l : List Nat, ∀ x ∈ passes (l.flatMap fun i => Cmd.forward (Loss.discrim i) ::
    if d then [.zero Net.discriminator, .backward (.discrim i) true, .clip .discriminator, .stepOf .discriminator .actor] else []), x = true
  | [] => by simp [passes]
  | i :: l => by
    simp only [List.flatMap_cons, passes_append, passes, List.mem_append]
    rintro x (h | h)
    · cases d <;> simp_all [passes]
    · exact passes_discrim d l x h

/-- C149, full statement: in every update of every algorithm. -/
def C149_full : Prop :=
  ∀ (alg : Alg) (sch : Scheme) (f : Flags), Hooked Int Int (alg.program sch f)

/-- A run for witnesses: all gradients are 1, optimizers subtract. -/
def ones : Env Net Loss Int Int where
  grad _ _ _ := 1
  deps
    | .value => [.critic]
    | .value2 => [.critic2]
    | .policy => [.actor, .critic]
    | .alpha => [.alpha]
    | .valueAt _ => [.critic]
    | .policyAt _ => [.actor]
    | .discrim _ => [.discriminator]
  clip g := g
  step _ p g o := (p - g, o + 1)
  mix t _ := t
  clamp a := a

/-- The same, for algorithms with a Q network. -/
def onesQ : Env Net Loss Int Int := { ones with deps := fun _ => [.qnet] }

def start : St Net Loss Int Int := ⟨fun _ => 0, fun _ => 7, fun _ => 0, fun _ => 0, 0, fun _ => none, []⟩

/-- What an update does to the list of backward passes. -/
def callsOf (env : Env Net Loss Int Int) (p : List (Cmd Net Loss)) : Except Err (List Bool) :=
  match run env p start with
  | .error e => .error e
  | .ok s => .ok s.calls

private theorem not_hooked (env : Env Net Loss Int Int) (p : List (Cmd Net Loss)) (k : List Bool) (h : callsOf env p = .ok k) (hk : false ∈ k) : ¬ Hooked Int Int p := by
  intro hh
  unfold callsOf at h
  cases hr : run env p start with
  | error e => rw [hr] at h; cases h
  | ok s =>
    rw [hr] at h
    simp only [Except.ok.injEq] at h
    obtain ⟨k', e, hall⟩ := hh env start s hr
    have : s.calls = k' := by rw [e]; rfl
    rw [← h, this] at hk
    exact absurd (hall false hk) (by simp)

/-- TD3 calls `loss.backward()` for both critics and the actor. -/
theorem C149_violated_td3 : ¬ Hooked Int Int (Alg.td3.program .rate ⟨true, true, true⟩) :=
  not_hooked ones _ [false, false, false] (by decide +kernel) (by decide)

/-- SAC calls `loss.backward()` for both critics, the actor and the entropy coefficient. -/
theorem C149_violated_sac : ¬ Hooked Int Int ((Alg.sac true).program .rate ⟨true, true, true⟩) :=
  not_hooked ones _ [false, false, false, false] (by decide +kernel) (by decide)

/-- DQN in the mode "vanilla". -/
theorem C149_violated_dqn : ¬ Hooked Int Int ((Alg.dqn .vanilla).program .rate ⟨true, true, true⟩) :=
  not_hooked onesQ _ [false] (by decide +kernel) (by decide)

/-- GAIL: the discriminator is trained through the function that was set, actor and critic are not. -/
theorem C149_violated_gail : ¬ Hooked Int Int ((Alg.gail true 1 1 1).program .rate ⟨true, true, true⟩) :=
  not_hooked ones _ [true, false, false] (by decide +kernel) (by decide)

/-- C149 does not hold. -/
theorem C149_violated : ¬ C149_full := fun h => C149_violated_td3 (h _ _ _)

/-- C149, what holds: DDPG (with HDDPG and DDPG-PER), DQN in the modes "fixed_target" and "double" (with DQN-PER and RAINBOW), A2C, PPO and IMPALA, for all
arguments, and GAIL as far as its own discriminator. Missing: TD3, SAC, DQN "vanilla" and the inner algorithm of GAIL. -/
theorem C149_hooked_partial (V O : Type) [Add V] [Zero V] (sch : Scheme) (f : Flags) :
    Hooked V O (Alg.ddpg.program sch f) ∧ Hooked V O ((Alg.dqn .fixedTarget).program sch f) ∧ Hooked V O ((Alg.dqn .double).program sch f) ∧
    (∀ i j, Hooked V O ((Alg.a2c i j).program sch f)) ∧ Hooked V O (Alg.impala.program sch f) ∧
    ∀ d i, Hooked V O ((Alg.gail d i 0 0).program sch f) := by
  refine ⟨hooked_of _ ?_, hooked_of _ ?_, hooked_of _ ?_, fun i j => hooked_of _ ?_, hooked_of _ ?_, fun d i => hooked_of _ ?_⟩
  · simp only [Alg.program, ddpg, passes_append, passes_trainIf, passes_targets, passes]
    cases f.value <;> cases f.policy <;> simp
  · simp only [Alg.program, dqn, passes_append, passes_trainIf, passes_targets, passes]
    cases f.value <;> simp
  · simp only [Alg.program, dqn, passes_append, passes_trainIf, passes_targets, passes]
    cases f.value <;> simp
  · simp only [Alg.program, a2c, passes_append, List.mem_append]
    rintro b (h | h) <;> exact passes_loop _ _ _ _ _ b h
  · simp only [Alg.program, impala, passes_append, passes_trainIf, passes]
    cases f.value <;> cases f.policy <;> simp
  · simp only [Alg.program, gail, a2c, passes_append, List.mem_append]
    rintro b (h | h | h)
    · exact passes_discrim d _ b h
    · simp [passes] at h
    · simp [passes] at h

/-- Runs with two backward passes made by the function that was set. -/
example : callsOf ones (Alg.ddpg.program .rate ⟨true, true, true⟩) = .ok [true, true] ∧
    callsOf onesQ ((Alg.dqn .double).program (.steps 2) ⟨true, true, true⟩) = .ok [true] ∧
    callsOf ones ((Alg.a2c 2 1).program .rate ⟨true, true, true⟩) = .ok [true, true, true] ∧
    callsOf ones (Alg.impala.program .rate ⟨true, true, true⟩) = .ok [true, true] := by decide +kernel

end Machin.Step
