import Verif.Effects.Lemmas

/-! # C177 and C180: how often `update` steps every optimizer and clears the buffer -/

namespace Machin.Effects

/-- How often an update should step the optimizer at a place: once for the value and the policy where they are asked for, as often as set by
`actor_update_times`, `critic_update_times` and `discriminator_update_times` with on-policy algorithms; never with A3C, whose gradients are pushed to a server,
and never for the actor with TRPO. -/
def times : Alg → Flags → Slot → Nat
  | .dqn, f, .qnet | .dqnPer, f, .qnet | .dqnApex, f, .qnet | .rainbow, f, .qnet => f.value.toNat
  | .ddpg, f, .critic | .ddpgPer, f, .critic | .ddpgApex, f, .critic | .hddpg, f, .critic => f.value.toNat
  | .ddpg, f, .actor | .ddpgPer, f, .actor | .ddpgApex, f, .actor | .hddpg, f, .actor => f.policy.toNat
  | .td3, f, .critic | .td3, f, .critic2 | .sac, f, .critic | .sac, f, .critic2 => f.value.toNat
  | .td3, f, .actor | .sac, f, .actor => f.policy.toNat
  | .sac, f, .alpha => f.alpha.toNat
  | .a2c, f, .actor | .ppo, f, .actor => f.actorTimes * f.policy.toNat
  | .a2c, f, .critic | .ppo, f, .critic => f.criticTimes * f.value.toNat
  | .trpo, f, .critic => if f.policy && f.zeroGrad then 0 else f.criticTimes * f.value.toNat
  | .gail _, f, .discriminator => f.discriminatorTimes * f.discriminator.toNat
  | .gail false, f, .innerActor => f.actorTimes * f.policy.toNat
  | .gail false, f, .innerCritic => f.criticTimes * f.value.toNat
  | .gail true, f, .innerCritic => if f.policy && f.zeroGrad then 0 else f.criticTimes * f.value.toNat
  | .impala, f, .actor => f.policy.toNat
  | .impala, f, .critic => f.value.toNat
  | .ars, f, .actor => f.manager.toNat
  | _, _, _ => 0

/-- How often the buffer is emptied. -/
def clears : Alg → Flags → Nat
  | .a2c, _ | .a3c, _ | .ppo, _ | .gail false, _ => 1
  | .trpo, f | .gail true, f => if f.policy && f.zeroGrad then 0 else 1
  | _, _ => 0

theorem count_block (e : Eff) (b : Bool) (l : List Eff) : (block b l).count e = b.toNat * l.count e := by
  cases b <;> simp [block]

theorem count_loop (e : Eff) (k : Nat) (l : List Eff) : (loop k l).count e = k * l.count e := by
  induction k with
  | zero => simp [loop]
  | succ k ih =>
    rw [loop, List.replicate_succ, List.flatten_cons, List.count_append]
    rw [loop] at ih
    rw [ih, Nat.succ_mul, Nat.add_comm]

/-- C177, partial: how often an update steps the optimizer at every place, for all frameworks but MADDPG. -/
theorem C177_count_partial (alg : Alg) (f : Flags) (hm : alg ≠ .maddpg) (tr : List (Nat × Eff)) (h : Interleaving (tasks alg f) tr) (s : Slot) :
    (tr.map (·.2)).count (.step s) = times alg f s := by
  obtain ⟨l, hl⟩ := one_task alg f hm
  rw [hl] at h
  rw [run_one h]
  have hl' : l = (tasks alg f).flatten := by simp [hl]
  rw [hl']
  clear h hl hl'
  cases alg <;> first | exact absurd rfl hm | skip
  case gail b =>
    cases b
    · cases s <;> simp [tasks, gailProg, a2cProg, count_block, count_loop, List.count_append, times]
    · cases hz : f.policy && f.zeroGrad <;> cases s <;> simp [tasks, gailProg, trpoProg, count_block, count_loop, List.count_append, times, hz]
  case trpo =>
    cases hz : f.policy && f.zeroGrad <;> cases s <;> simp [tasks, trpoProg, count_block, count_loop, List.count_append, times, hz]
  all_goals
    cases s <;> simp [tasks, dqnProg, ddpgProg, td3Prog, sacProg, a2cProg, a3cProg, impalaProg, arsProg, count_block, count_loop, List.count_append,
      List.count_cons, times]

/-- C180, partial: how often an update empties the buffer. -/
theorem C180_clear_partial (alg : Alg) (f : Flags) (hm : alg ≠ .maddpg) (tr : List (Nat × Eff)) (h : Interleaving (tasks alg f) tr) :
    (tr.map (·.2)).count .clear = clears alg f := by
  obtain ⟨l, hl⟩ := one_task alg f hm
  rw [hl] at h
  rw [run_one h]
  have hl' : l = (tasks alg f).flatten := by simp [hl]
  rw [hl']
  clear h hl hl'
  cases alg <;> first | exact absurd rfl hm | skip
  case gail b =>
    cases b
    · simp [tasks, gailProg, a2cProg, count_block, count_loop, List.count_append, clears]
    · cases hz : f.policy && f.zeroGrad <;> simp [tasks, gailProg, trpoProg, count_block, count_loop, List.count_append, clears, hz]
  case trpo =>
    cases hz : f.policy && f.zeroGrad <;> simp [tasks, trpoProg, count_block, count_loop, List.count_append, clears, hz]
  all_goals
    simp [tasks, dqnProg, ddpgProg, td3Prog, sacProg, a2cProg, a3cProg, impalaProg, arsProg, count_block, count_loop, List.count_append,
      List.count_cons, clears]

/-- With MADDPG the actor of every agent and member of the ensemble is stepped once, the critic of an agent once for every member. -/
theorem C177_maddpg_partial (f : Flags) (a p : Nat) :
    ((tasks .maddpg f).flatten).count (.step (.actorOf a p)) = (if f.empty then 0 else if a < f.agents ∧ p < f.ensemble then f.policy.toNat else 0) ∧
    ((tasks .maddpg f).flatten).count (.step (.criticOf a)) = (if f.empty then 0 else if a < f.agents then f.ensemble * f.value.toNat else 0) := by
  have h1 : ∀ x y, (maddpgTask f x y).count (.step (.actorOf a p)) = if x = a ∧ y = p then f.policy.toNat else 0 := by
    intro x y
    by_cases h : x = a ∧ y = p <;> simp [maddpgTask, count_block, List.count_append, List.count_cons, h]
  have h2 : ∀ x y, (maddpgTask f x y).count (.step (.criticOf a)) = if x = a then f.value.toNat else 0 := by
    intro x y
    by_cases h : x = a <;> simp [maddpgTask, count_block, List.count_append, List.count_cons, h]
  have inner : ∀ (e : Eff) (g : Nat → List Eff) (v n : Nat), (∀ x, (g x).count e = if x = a then v else 0) →
      (((List.range n).map g).flatten).count e = if a < n then v else 0 := by
    intro e g v n hg
    induction n with
    | zero => simp
    | succ n ih =>
      rw [List.range_succ, List.map_append, List.flatten_append, List.count_append, ih]
      simp only [List.map_cons, List.map_nil, List.flatten_cons, List.flatten_nil, List.append_nil, hg]
      by_cases h : n = a
      · subst h; simp
      · by_cases h' : a < n
        · simp [h, h', Nat.lt_succ_of_lt h']
        · simp [h, h', show ¬ a < n + 1 by omega]
  cases he : f.empty with
  | true => simp [tasks, he]
  | false =>
    simp only [tasks, he, Bool.false_eq_true, if_false]
    constructor
    · have hin : ∀ y n, (((List.range n).map fun x => maddpgTask f x y).flatten).count (.step (.actorOf a p)) =
          if a < n then (if y = p then f.policy.toNat else 0) else 0 := by
        intro y n
        refine inner _ _ _ n fun x => ?_
        rw [h1]
        by_cases hx : x = a <;> by_cases hy : y = p <;> simp [hx, hy]
      induction f.ensemble with
      | zero => simp
      | succ n ih =>
        rw [List.range_succ, List.flatMap_append, List.flatten_append, List.count_append, ih]
        simp only [List.flatMap_cons, List.flatMap_nil, List.append_nil, hin]
        by_cases ha : a < f.agents
        · by_cases h : n = p
          · subst h; simp [ha]
          · by_cases h' : p < n
            · simp [ha, h, h', Nat.lt_succ_of_lt h']
            · simp [ha, h, h', show ¬ p < n + 1 by omega]
        · simp [ha]
    · have hin : ∀ y n, (((List.range n).map fun x => maddpgTask f x y).flatten).count (.step (.criticOf a)) =
          if a < n then f.value.toNat else 0 := fun y n => inner _ _ _ n fun x => h2 x y
      induction f.ensemble with
      | zero => simp
      | succ n ih =>
        rw [List.range_succ, List.flatMap_append, List.flatten_append, List.count_append, ih]
        simp only [List.flatMap_cons, List.flatMap_nil, List.append_nil, hin]
        by_cases ha : a < f.agents
        · simp [ha, Nat.succ_mul]
        · simp [ha]

/-- SAC with a fixed temperature. -/
example : let f : Flags := ⟨true, true, false, false, false, false, false, false, false, 1, 1, 1, 1, 1⟩
    times .sac f .alpha = 0 ∧ times .sac f .critic2 = 1 ∧ clears .sac f = 0 ∧
    Interleaving (tasks .sac f) ((sacProg f).map fun e => (0, e)) := ⟨rfl, rfl, rfl, one_run _⟩

end Machin.Effects
