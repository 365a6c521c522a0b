import Verif.Step.LemmasOne
import Verif.Step.LemmasPool
import Mathlib.Algebra.Order.Ring.Rat

/-! # Properties of the parallel update of MADDPG: C151 and C152 -/

namespace Machin.Step

/-- Networks and losses belong to the agents. -/
def agents : Owner MNet MLoss where
  net
    | .actor a _ | .actorTarget a _ | .critic a | .criticTarget a => a
  loss
    | .value a _ | .policy a _ => a

/-- The losses of MADDPG: what they are differentiated through (maddpg.py:843-879), and that their gradients depend on networks of their own agent only (the
actions of other agents come from the batch or were computed before the tasks start, maddpg.py:583-592). -/
structure Losses {V O : Type} (env : Env MNet MLoss V O) : Prop where
  value : ∀ a e, env.deps (.value a e) = [.critic a]
  policy : ∀ a e, env.deps (.policy a e) = [.actor a e, .critic a]
  own : ∀ l θ θ' n, (∀ m, agents.net m = agents.loss l → θ m = θ' m) → agents.net n = agents.loss l → env.grad l θ n = env.grad l θ' n

theorem Losses.local {V O : Type} {env : Env MNet MLoss V O} (h : Losses env) : Local env agents := by
  refine ⟨?_, h.own⟩
  intro l n hn
  cases l with
  | value a e => rw [h.value] at hn; simp only [List.mem_singleton] at hn; rw [hn]; rfl
  | policy a e =>
    rw [h.policy] at hn
    simp only [List.mem_cons, List.not_mem_nil, or_false] at hn
    rcases hn with rfl | rfl <;> rfl

/-! ### C151: the result of the update does not depend on how the workers interleave -/

/-- A schedule that finishes all tasks of an update, and the state it leads to. -/
def Finishes {V O : Type} [Add V] [Zero V] (env : Env MNet MLoss V O) (ts : List (List (Cmd MNet MLoss))) (sched : List Nat) (s s' : St MNet MLoss V O) : Prop :=
  ∃ ts', pool env sched ts s = .ok (ts', s') ∧ ∀ t ∈ ts', t = []

/-- C151, full statement: no schedule raises, and all schedules that finish the tasks lead to the same parameters. -/
def C151_full : Prop :=
  ∀ (env : Env MNet MLoss Int Int) (sch : Scheme) (f : Flags) (agents ensemble : Nat) (s : St MNet MLoss Int Int), Losses env → sch ≠ .neither →
    sch ≠ .steps 0 → (∀ sched, ∃ r, pool env sched (tasks sch f agents ensemble) s = .ok r) ∧
    ∀ sched1 sched2 s1 s2, Finishes env (tasks sch f agents ensemble) sched1 s s1 → Finishes env (tasks sch f agents ensemble) sched2 s s2 → s1.par = s2.par

/-- A witness: sub-policy 0 has gradient 1, sub-policy 1 has gradient 10, for every network. -/
def onesTens : Env MNet MLoss Int Int where
  grad
    | .value _ e, _, _ | .policy _ e, _, _ => if e = 0 then 1 else 10
  deps
    | .value a _ => [.critic a]
    | .policy a e => [.actor a e, .critic a]
  clip g := g
  step _ p g o := (p - g, o)
  mix t _ := t
  clamp a := a

theorem onesTens_losses : Losses onesTens := ⟨fun _ _ => rfl, fun _ _ => rfl, fun l _ _ _ _ _ => by cases l <;> rfl⟩

def fresh : St MNet MLoss Int Int := ⟨fun _ => 0, fun _ => 0, fun _ => 0, fun _ => 0, 1, fun _ => none, []⟩

/-- The critic of agent 0 after the schedule, with what is left to do. -/
def criticAfter (sched : List Nat) : Except Err (Nat × Int) :=
  match pool onesTens sched (tasks .rate ⟨true, false, false⟩ 1 2) fresh with
  | .error e => .error e
  | .ok (ts, s) => .ok (ts.flatten.length, s.par (.critic 0))

/-- One agent, two sub-policies, only the critic is trained. One after the other: both gradients are applied once. -/
theorem C151_violated_sequential : criticAfter ([0, 0, 0, 0, 0, 0] ++ [1, 1, 1, 1, 1, 1]) = .ok (0, -11) := by decide +kernel

/-- Worker 0 clears the gradient and makes its backward pass, then worker 1 does, both apply what is there: the gradient of sub-policy 0 is lost, that of
sub-policy 1 is applied twice. -/
theorem C151_violated_lost : criticAfter [0, 1, 0, 0, 1, 1, 0, 0, 1, 1, 0, 1] = .ok (0, -20) := by decide +kernel

/-- Worker 1 makes a step of the critic that they share between the forward and the backward pass of worker 0: RuntimeError. -/
theorem C151_violated_error : criticAfter [0, 1, 1, 1, 1, 1, 0, 0] = .error .runtime := by decide +kernel

/-- C151 does not hold. -/
theorem C151_violated : ¬ C151_full := by
  intro h
  obtain ⟨r, hr⟩ := (h onesTens .rate ⟨true, false, false⟩ 1 2 fresh onesTens_losses (by simp) (by simp)).1 [0, 1, 1, 1, 1, 1, 0, 0]
  have := C151_violated_error
  unfold criticAfter at this
  rw [hr] at this
  cases this

section
variable {V O : Type} [AddMonoid V]

/-- What an update does to the networks of one sub-policy with a critic of its own; `c` is the number of updates before this one. -/
structure Updated (env : Env MNet MLoss V O) (sch : Scheme) (f : Flags) (a e c : Nat) (s s' : St MNet MLoss V O) : Prop where
  critic : s'.par (.critic a) = trained env s f.value (.critic a) (.value a e) s.par
  actor : s'.par (.actor a e) = trained env s f.policy (.actor a e) (.policy a e)
    (set s.par (.critic a) (trained env s f.value (.critic a) (.value a e) s.par))
  criticTarget : s'.par (.criticTarget a) = followed env sch f.target c (s.par (.criticTarget a)) (s'.par (.critic a))
  actorTarget : s'.par (.actorTarget a e) = followed env sch f.target c (s.par (.actorTarget a e)) (s'.par (.actor a e))
  criticOpt : s'.opt (.critic a) = trainedOpt env s f.value (.critic a) (.value a e) s.par
  actorOpt : s'.opt (.actor a e) = trainedOpt env s f.policy (.actor a e) (.policy a e)
    (set s.par (.critic a) (trained env s f.value (.critic a) (.value a e) s.par))

/-- One task alone. -/
theorem C151_alone (env : Env MNet MLoss V O) (h : Losses env) (sch : Scheme) (f : Flags) (hs : f.target = true → sch ≠ .neither ∧ sch ≠ .steps 0)
    (a e c : Nat) (s : St MNet MLoss V O) (hc : s.counter = c + 1) : ∃ s', run env (subPolicy sch f a e) s = .ok s' ∧ Updated env sch f a e c s s' := by
  obtain ⟨s1, h1, p1, o1, c1, -⟩ := run_one env f.value (.critic a) (.value a e) true (by simp [h.value]) s
  obtain ⟨s2, h2, p2, o2, c2, -⟩ := run_one env f.policy (.actor a e) (.policy a e) true (by simp [h.policy]) s1
  obtain ⟨s3, h3, p3, o3, -⟩ := run_targets env sch false f.target [(.actorTarget a e, .actor a e), (.criticTarget a, .critic a)] s2 hs
  have ht : trained env s1 f.policy (.actor a e) (.policy a e) s1.par = trained env s f.policy (.actor a e) (.policy a e) s1.par := by
    simp only [trained, o1, p1]
    simp [set]
  have hto : trainedOpt env s1 f.policy (.actor a e) (.policy a e) s1.par = trainedOpt env s f.policy (.actor a e) (.policy a e) s1.par := by
    simp only [trainedOpt, o1, p1]
    simp [set]
  rw [ht] at p2
  rw [hto] at o2
  refine ⟨s3, ?_, ?_⟩
  · simp only [subPolicy, List.append_assoc, List.cons_append, List.nil_append]
    rw [h1, h2, h3]
  · rw [c2, c1, hc, p2, p1] at p3
    rw [p1] at o2
    obtain ⟨tc, htc⟩ : ∃ tc, tc = trained env s f.value (.critic a) (.value a e) s.par := ⟨_, rfl⟩
    rw [← htc] at p3 o2
    obtain ⟨ta, hta⟩ : ∃ ta, ta = trained env s f.policy (.actor a e) (.policy a e) (set s.par (.critic a) tc) := ⟨_, rfl⟩
    rw [← hta] at p3
    have par : ∀ n, s3.par n = moved env sch false f.target (c + 1) [(.actorTarget a e, .actor a e), (.criticTarget a, .critic a)]
        (set (set s.par (.critic a) tc) (.actor a e) ta) n := fun n => by rw [p3]
    have hcr : s3.par (.critic a) = tc := by
      rw [par]
      unfold moved
      cases ht : f.target with
      | false => simp [set]
      | true =>
        cases sch with
        | neither => exact absurd rfl (hs ht).1
        | rate => simp [set, follow]
        | steps k => by_cases hk : (c + 1) % k = 0 <;> simp [set, follow, hk]
    have hac : s3.par (.actor a e) = ta := by
      rw [par]
      unfold moved
      cases ht : f.target with
      | false => simp [set]
      | true =>
        cases sch with
        | neither => exact absurd rfl (hs ht).1
        | rate => simp [set, follow]
        | steps k => by_cases hk : (c + 1) % k = 0 <;> simp [set, follow, hk]
    refine ⟨hcr.trans htc, by rw [hac, hta, htc], ?_, ?_, ?_, ?_⟩
    · rw [hcr, par]
      unfold moved followed
      cases ht : f.target with
      | false => simp [set]
      | true =>
        cases sch with
        | neither => exact absurd rfl (hs ht).1
        | rate => simp [set, follow]
        | steps k => by_cases hk : (c + 1) % k = 0 <;> simp [set, follow, hk]
    · rw [hac, par]
      unfold moved followed
      cases ht : f.target with
      | false => simp [set]
      | true =>
        cases sch with
        | neither => exact absurd rfl (hs ht).1
        | rate => simp [set, follow]
        | steps k => by_cases hk : (c + 1) % k = 0 <;> simp [set, follow, hk]
    · rw [o3, o2, o1]; simp [set]
    · rw [o3, o2]; simp [set, htc]

theorem subPolicy_owned (sch : Scheme) (f : Flags) (a e : Nat) : ∀ c ∈ subPolicy sch f a e, Owned agents a c := by
  intro c hc
  simp only [subPolicy, trainIf, train] at hc
  cases hv : f.value <;> cases hp : f.policy <;> cases ht : f.target <;> rw [hv, hp, ht] at hc <;>
    simp at hc <;> rcases hc with rfl | hc <;> (try rcases hc with rfl | hc) <;> (try rcases hc with rfl | hc) <;> (try rcases hc with rfl | hc) <;>
    (try rcases hc with rfl | hc) <;> (try rcases hc with rfl | hc) <;> (try rcases hc with rfl | hc) <;> (try rcases hc with rfl | hc) <;>
    (try rcases hc with rfl | hc) <;> (try rcases hc with rfl | hc) <;> (try subst hc) <;> simp [Owned, agents]

theorem tasks_one (sch : Scheme) (f : Flags) (n : Nat) : tasks sch f n 1 = (List.range n).map fun a => subPolicy sch f a 0 := by
  simp [tasks]

/-- C151, what holds: with one sub-policy for each agent no schedule raises, and every schedule that finishes the tasks does to the networks of every agent
what its task does alone: one step for critic and actor, one movement of their targets. Missing: ensembles of two or more, for which it is false. -/
theorem C151_single_partial (env : Env MNet MLoss V O) (h : Losses env) (sch : Scheme) (f : Flags) (hs : f.target = true → sch ≠ .neither ∧ sch ≠ .steps 0)
    (n c : Nat) (s : St MNet MLoss V O) (hc : s.counter = c + 1) (sched : List Nat) :
    ∃ ts' s', pool env sched (tasks sch f n 1) s = .ok (ts', s') ∧ ((∀ t ∈ ts', t = []) → ∀ a < n, Updated env sch f a 0 c s s') := by
  have key := pool_solo h.local s (tasks sch f n 1) sched (tasks sch f n 1) s rfl (by
    intro i hi
    rw [tasks_one] at hi
    simp only [List.length_map, List.length_range] at hi
    simp only [tasks_one]
    constructor
    · intro c hc
      simp only [List.getElem_map, List.getElem_range] at hc
      exact subPolicy_owned sch f i 0 c hc
    · exact ⟨s, Agree.refl _ _ _, by simp [List.getD, hi]⟩)
  have hget : ∀ i, i < n → (tasks sch f n 1).getD i [] = subPolicy sch f i 0 := by
    intro i hi
    rw [tasks_one]
    simp [List.getD, hi]
  have hlen : (tasks sch f n 1).length = n := by simp [tasks_one]
  cases hp : pool env sched (tasks sch f n 1) s with
  | error e =>
    rw [hp] at key
    obtain ⟨i, hi, he⟩ := key
    rw [hlen] at hi
    rw [hget i hi] at he
    obtain ⟨s', hs', -⟩ := C151_alone env h sch f hs i 0 c s hc
    rw [hs'] at he
    cases he
  | ok r =>
    obtain ⟨ts', s'⟩ := r
    rw [hp] at key
    refine ⟨ts', s', rfl, ?_⟩
    intro hdone a ha
    obtain ⟨hl', key⟩ := key
    obtain ⟨sa, hag, hrun⟩ := key a (by omega)
    rw [hdone _ (List.getElem_mem _), hget a ha] at hrun
    obtain ⟨sa', hsa', hu⟩ := C151_alone env h sch f hs a 0 c s hc
    simp only [run] at hrun
    rw [hsa'] at hrun
    simp only [Except.ok.injEq] at hrun
    subst hrun
    have hpar : ∀ m, agents.net m = a → s'.par m = sa.par m := hag.par
    have hopt : ∀ m, agents.net m = a → s'.opt m = sa.opt m := hag.opt
    exact ⟨by rw [hpar _ rfl, hu.critic], by rw [hpar _ rfl, hu.actor], by rw [hpar (.criticTarget a) rfl, hpar (.critic a) rfl, hu.criticTarget],
      by rw [hpar (.actorTarget a 0) rfl, hpar (.actor a 0) rfl, hu.actorTarget], by rw [hopt _ rfl, hu.criticOpt], by rw [hopt _ rfl, hu.actorOpt]⟩

/-- C151, in particular: with one sub-policy for each agent all schedules that finish lead to the same networks of every agent. -/
theorem C151_schedules_partial (env : Env MNet MLoss V O) (h : Losses env) (sch : Scheme) (f : Flags) (hs : f.target = true → sch ≠ .neither ∧ sch ≠ .steps 0)
    (n c : Nat) (s s1 s2 : St MNet MLoss V O) (hc : s.counter = c + 1) (sched1 sched2 : List Nat) (h1 : Finishes env (tasks sch f n 1) sched1 s s1)
    (h2 : Finishes env (tasks sch f n 1) sched2 s s2) (a : Nat) (ha : a < n) : s1.par (.critic a) = s2.par (.critic a) ∧
      s1.par (.actor a 0) = s2.par (.actor a 0) ∧ s1.par (.criticTarget a) = s2.par (.criticTarget a) ∧ s1.par (.actorTarget a 0) = s2.par (.actorTarget a 0) := by
  obtain ⟨t1, e1, d1⟩ := h1
  obtain ⟨t2, e2, d2⟩ := h2
  obtain ⟨t1', s1', e1', u1⟩ := C151_single_partial env h sch f hs n c s hc sched1
  obtain ⟨t2', s2', e2', u2⟩ := C151_single_partial env h sch f hs n c s hc sched2
  rw [e1] at e1'
  rw [e2] at e2'
  simp only [Except.ok.injEq, Prod.mk.injEq] at e1' e2'
  obtain ⟨rfl, rfl⟩ := e1'
  obtain ⟨rfl, rfl⟩ := e2'
  have u1 := u1 d1 a ha
  have u2 := u2 d2 a ha
  have hcr : s1.par (.critic a) = s2.par (.critic a) := by rw [u1.critic, u2.critic]
  have hac : s1.par (.actor a 0) = s2.par (.actor a 0) := by rw [u1.actor, u2.actor]
  exact ⟨hcr, hac, by rw [u1.criticTarget, u2.criticTarget, hcr], by rw [u1.actorTarget, u2.actorTarget, hac]⟩

end

/-- Two agents whose workers interleave at every statement: both critics and actors make one step. -/
example : (match pool onesTens ((List.replicate 11 [1, 0]).flatten) (tasks .rate ⟨true, true, true⟩ 2 1) fresh with
    | .error _ => none
    | .ok (ts, s) => some (ts.flatten.length, s.par (.critic 0), s.par (.critic 1), s.par (.actor 0 0), s.par (.actor 1 0))) = some (0, -1, -1, -1, -1) := by
  decide +kernel

/-! ### C152: a target network moves once per update -/

/-- The tasks one after the other. -/
def sequential (ts : List (List (Cmd MNet MLoss))) : List Nat := (List.range ts.length).flatMap fun i => List.replicate (ts.getD i []).length i

/-- C152, full statement: when the tasks of an update run one after the other, the target of the critic of every agent ends as `mix` of its old value and
the critic. -/
def C152_full : Prop :=
  ∀ (env : Env MNet MLoss ℚ Unit) (f : Flags) (agents ensemble a : Nat) (s s' : St MNet MLoss ℚ Unit), Losses env → f.target = true → 0 < ensemble → a < agents →
    Finishes env (tasks .rate f agents ensemble) (sequential (tasks .rate f agents ensemble)) s s' →
    s'.par (.criticTarget a) = env.mix (s.par (.criticTarget a)) (s'.par (.critic a))

/-- A witness: nothing is trained, the targets move half way. -/
def still : Env MNet MLoss ℚ Unit where
  grad _ _ _ := 0
  deps
    | .value a _ => [.critic a]
    | .policy a e => [.actor a e, .critic a]
  clip g := g
  step _ p g o := (p - g, o)
  mix t s := t + (s - t) / 2
  clamp a := a

def apart : St MNet MLoss ℚ Unit := ⟨fun n => if n = .critic 0 then 1 else 0, fun _ => 0, fun _ => (), fun _ => 0, 1, fun _ => none, []⟩

def stillAfter (ensemble : Nat) : Except Err (Nat × ℚ × ℚ) :=
  match pool still (sequential (tasks .rate ⟨false, false, true⟩ 1 ensemble)) (tasks .rate ⟨false, false, true⟩ 1 ensemble) apart with
  | .error e => .error e
  | .ok (ts, s) => .ok (ts.flatten.length, s.par (.critic 0), s.par (.criticTarget 0))

/-- With two sub-policies the target of the critic moves twice: three quarters of the way, instead of half. -/
theorem C152_violated_twice : stillAfter 2 = .ok (0, 1, 3 / 4) ∧ stillAfter 1 = .ok (0, 1, 1 / 2) := by
  constructor <;> decide +kernel

/-- C152 does not hold. -/
theorem C152_violated : ¬ C152_full := by
  intro h
  have hv := C152_violated_twice.1
  unfold stillAfter at hv
  cases hp : pool still (sequential (tasks .rate ⟨false, false, true⟩ 1 2)) (tasks .rate ⟨false, false, true⟩ 1 2) apart with
  | error e => rw [hp] at hv; cases hv
  | ok r =>
    obtain ⟨ts, s'⟩ := r
    rw [hp] at hv
    simp only [Except.ok.injEq, Prod.mk.injEq] at hv
    have hfl : ∀ t ∈ ts, t = [] := by
      intro t ht
      have := List.length_eq_zero_iff.mp hv.1
      exact List.flatten_eq_nil_iff.mp this t ht
    have := h still ⟨false, false, true⟩ 1 2 0 apart s' ⟨fun _ _ => rfl, fun _ _ => rfl, fun _ _ _ _ _ _ => rfl⟩ rfl (by decide) (by decide) ⟨ts, hp, hfl⟩
    rw [hv.2.1, hv.2.2] at this
    revert this
    decide +kernel

/-- C152, what holds: with one sub-policy for each agent, in every schedule that finishes. Missing: larger ensembles, for which it is false. -/
theorem C152_single_partial {V O : Type} [AddMonoid V] (env : Env MNet MLoss V O) (h : Losses env) (f : Flags) (hf : f.target = true) (n c : Nat)
    (s s' : St MNet MLoss V O) (hc : s.counter = c + 1) (sched : List Nat) (hfin : Finishes env (tasks .rate f n 1) sched s s') (a : Nat) (ha : a < n) :
    s'.par (.criticTarget a) = env.mix (s.par (.criticTarget a)) (s'.par (.critic a)) ∧
    s'.par (.actorTarget a 0) = env.mix (s.par (.actorTarget a 0)) (s'.par (.actor a 0)) := by
  obtain ⟨t, e, d⟩ := hfin
  obtain ⟨t', s1', e', u⟩ := C151_single_partial env h .rate f (fun _ => ⟨by simp, by simp⟩) n c s hc sched
  rw [e] at e'
  simp only [Except.ok.injEq, Prod.mk.injEq] at e'
  obtain ⟨rfl, rfl⟩ := e'
  have u := u d a ha
  have hc' := u.criticTarget
  have ha' := u.actorTarget
  rw [hf] at hc' ha'
  exact ⟨hc', ha'⟩

end Machin.Step
