import Verif.Maddpg.Model
import Mathlib.Algebra.Order.Field.Rat
import Mathlib.Tactic.Ring

/-!
# C61, C83–C86: MADDPG optimizers, losses and shared memory

C61: `frame.optimizers = frame.optimizers` leaves every actor and critic with its own optimizer. **The code violates it**: the getter lists
the critics first, the setter expects the actors first.
C83: the target value uses the actions of the *target* actors for all agents. **Violated**: `act(..., target=True)` swallows the
keyword, the other agents' actions come from the online actors.
C84: the policy loss of an agent is minus the mean value of the actions where its own action is its actor's action *in the same state*.
**Violated**: the actor is evaluated at the next state.
C85: `update` returns the mean estimated policy value and the mean value loss. **Violated**: the sign of the first is wrong.
C86: `_move_to_shared_mem` keeps every object. **Violated** for everything that is not a tensor or a container.
-/

namespace Machin.Maddpg

/-! ### C61 -/

/-- C61 in full. -/
def C61_full : Prop := ∀ o : Optims Nat, setOptimizers o (getOptimizers o) = .ok o

theorem foldl_append {O : Type} (l : List (List O)) (c : List O) : l.foldl (· ++ ·) c = c ++ l.flatten := by
  induction l generalizing c with
  | nil => simp
  | cons x xs ih => simp [ih]

theorem takeOptims_spec {O : Type} (k : Nat) (l : List O) :
    (k ≤ l.length → takeOptims k l = .ok (l.take k, l.drop k)) ∧ (l.length < k → takeOptims k l = .error .index) := by
  induction k generalizing l with
  | zero => simp [takeOptims]
  | succ k ih =>
    cases l with
    | nil => simp [takeOptims]
    | cons x l =>
      refine ⟨fun h => ?_, fun h => ?_⟩
      · unfold takeOptims
        rw [(ih l).1 (by simpa using h)]
        simp
      · unfold takeOptims
        rw [(ih l).2 (by simpa using h)]

theorem takeActors_spec {O : Type} (acs : List (List O)) (l : List O) (h : acs.flatten.length ≤ l.length) :
    ∃ out, takeActors acs l = .ok (out, l.drop acs.flatten.length) ∧ out.flatten = l.take acs.flatten.length ∧
      out.map List.length = acs.map List.length := by
  induction acs generalizing l with
  | nil => exact ⟨[], by simp [takeActors], by simp, rfl⟩
  | cons a as ih =>
    simp only [List.flatten_cons, List.length_append] at h
    obtain ⟨out, h1, h2, h3⟩ := ih (l.drop a.length) (by rw [List.length_drop]; omega)
    refine ⟨l.take a.length :: out, ?_, ?_, ?_⟩
    · unfold takeActors
      rw [(takeOptims_spec a.length l).1 (by omega)]
      simp only
      rw [h1]
      simp [List.drop_drop]
    · rw [List.flatten_cons, h2, List.flatten_cons, List.length_append, List.take_add]
    · simp only [List.map_cons, h3, List.length_take]
      rw [Nat.min_eq_left (by omega)]

theorem eq_of_flatten {O : Type} (a b : List (List O)) (h1 : a.flatten = b.flatten) (h2 : a.map List.length = b.map List.length) : a = b := by
  induction a generalizing b with
  | nil => cases b with
    | nil => rfl
    | cons y ys => simp at h2
  | cons x xs ih =>
    cases b with
    | nil => simp at h2
    | cons y ys =>
      simp only [List.map_cons, List.cons.injEq] at h2
      simp only [List.flatten_cons] at h1
      obtain ⟨e1, e2⟩ := List.append_inj h1 h2.1
      rw [e1, ih ys e2 h2.2]

/-- **C61** (partial): setting a list of optimizers that is long enough gives them out in order, the actors first, and keeps the number of
sub-policies of each actor; in particular setting actors followed by critics changes nothing. Missing: the order of the getter. -/
theorem C61_setter_partial {O : Type} (o : Optims O) (l : List O) (h : l.length = o.actors.flatten.length + o.critics.length) :
    (∃ o', setOptimizers o l = .ok o' ∧ o'.actors.flatten ++ o'.critics = l ∧ o'.actors.map List.length = o.actors.map List.length ∧
      o'.critics.length = o.critics.length) ∧
    setOptimizers o (o.actors.flatten ++ o.critics) = .ok o := by
  have key : ∀ l : List O, l.length = o.actors.flatten.length + o.critics.length →
      ∃ o', setOptimizers o l = .ok o' ∧ o'.actors.flatten ++ o'.critics = l ∧ o'.actors.map List.length = o.actors.map List.length ∧
        o'.critics.length = o.critics.length := by
    intro l h
    obtain ⟨out, h1, h2, h3⟩ := takeActors_spec o.actors l (by omega)
    have hl : (l.drop o.actors.flatten.length).length = o.critics.length := by rw [List.length_drop]; omega
    refine ⟨⟨out, l.drop o.actors.flatten.length⟩, ?_, ?_, h3, hl⟩
    · unfold setOptimizers
      rw [h1]
      simp only
      rw [(takeOptims_spec _ _).1 (by rw [hl])]
      simp only
      rw [← hl, List.take_length]
    · simp only
      rw [h2, List.take_append_drop]
  refine ⟨key l h, ?_⟩
  obtain ⟨o', h1, h2, h3, h4⟩ := key (o.actors.flatten ++ o.critics) (by simp)
  rw [h1]
  obtain ⟨e1, e2⟩ := List.append_inj' h2 h4
  have := eq_of_flatten _ _ e1 h3
  cases o'
  cases o
  simp_all

/-- **C61** (partial, what the round trip does): the first optimizers, as many as there are actor sub-policies, of the list "critics, then
actors" end up with the actors, the rest with the critics; it changes nothing only if both orders give the same list. -/
theorem C61_round_trip_partial {O : Type} (o : Optims O) :
    (∃ o', setOptimizers o (getOptimizers o) = .ok o' ∧ o'.actors.flatten ++ o'.critics = o.critics ++ o.actors.flatten) ∧
      (setOptimizers o (getOptimizers o) = .ok o ↔ o.actors.flatten ++ o.critics = o.critics ++ o.actors.flatten) := by
  have hg : getOptimizers o = o.critics ++ o.actors.flatten := foldl_append _ _
  obtain ⟨o', h1, h2, h3, h4⟩ := (C61_setter_partial o (getOptimizers o) (by rw [hg, List.length_append]; omega)).1
  refine ⟨⟨o', h1, by rw [h2, hg]⟩, ?_⟩
  constructor
  · intro h
    rw [h1, Except.ok.injEq] at h
    subst h
    rw [h2, hg]
  · intro h
    rw [hg, ← h]
    exact (C61_setter_partial o (o.actors.flatten ++ o.critics) (by simp)).2

/-- **C61 is violated**: with one actor and one critic they swap optimizers. -/
theorem C61_violated : ¬ C61_full := by
  intro h
  have := h ⟨[[1]], [2]⟩
  revert this
  decide

theorem C61_violated_result : setOptimizers ⟨[[1, 2], [3, 4]], [5, 6]⟩ (getOptimizers ⟨[[1, 2], [3, 4]], [5, 6]⟩) =
    .ok ⟨[[5, 6], [1, 2]], [3, 4]⟩ := by decide

/-- Non-vacuity; too short a list is an error. -/
example : setOptimizers ⟨[[1, 2], [3, 4]], [5, 6]⟩ [1, 2, 3, 4, 5, 6] = .ok ⟨[[1, 2], [3, 4]], [5, 6]⟩ ∧
    setOptimizers ⟨[[1]], [5]⟩ [7] = .error .index := by decide

/-! ### C83 -/

/-- The target value of the algorithm: the target critic at the next states and at actions of the target actors for all agents (of the agent
itself the sub-policy being trained, of the others the sub-policy picked). -/
def tdSpec {S A K : Type} [Field K] (n : Nets S A K) (agent policy : Nat) (row : Row S A K) : K :=
  let sub := fun v => if v = agent then policy else n.choice v
  let value := n.criticTargets agent ((n.visible agent).map row.nx) ((n.visible agent).map fun v => n.actorTargets v (sub v) (row.nx v))
  if row.term agent then row.rew agent else row.rew agent + n.discount * value

/-- C83 in full. -/
def C83_full : Prop := ∀ (n : Nets ℚ ℚ ℚ) (agent policy : Nat) (row : Row ℚ ℚ ℚ), tdTarget n agent policy row = tdSpec n agent policy row

/-- **C83** (partial): the target value is that of the algorithm where the online actors of the other visible agents agree with their target
actors at the next states; at terminal steps it is the reward. Missing: online actors that differ from the targets. -/
theorem C83_td_target_partial {S A K : Type} [Field K] (n : Nets S A K) (agent policy : Nat) (row : Row S A K) :
    ((∀ v ∈ n.visible agent, v ≠ agent → n.actors v (n.choice v) (row.nx v) = n.actorTargets v (n.choice v) (row.nx v)) →
      tdTarget n agent policy row = tdSpec n agent policy row) ∧
    (row.term agent = true → tdTarget n agent policy row = row.rew agent) := by
  refine ⟨fun h => ?_, fun h => ?_⟩
  · have e : allNextActions n agent policy row =
        (n.visible agent).map fun v => n.actorTargets v (if v = agent then policy else n.choice v) (row.nx v) := by
      unfold allNextActions
      apply List.map_congr_left
      intro v hv
      by_cases hva : v = agent
      · subst hva; simp
      · simp only [hva, ne_eq, not_false_eq_true, if_true, if_false]
        have : nextActions n row v = n.actors v (n.choice v) (row.nx v) := by
          unfold nextActions act actUseTarget
          rfl
        rw [this, h v hv hva]
    unfold tdTarget tdSpec
    simp only [e]
    cases row.term agent <;> simp
  · unfold tdTarget
    simp [h]

/-- **C83** (what the code does): the actions of the other agents are those of the online actors, whatever the target actors are. -/
theorem C83_online_actions_partial {S A K : Type} (n : Nets S A K) (agent policy : Nat) (row : Row S A K) :
    allNextActions n agent policy row = (n.visible agent).map fun v =>
      if v = agent then n.actorTargets agent policy (row.nx agent) else n.actors v (n.choice v) (row.nx v) := by
  unfold allNextActions
  apply List.map_congr_left
  intro v hv
  by_cases hva : v = agent
  · subst hva; simp
  · simp only [hva, ne_eq, not_false_eq_true, if_true, if_false]
    rfl

/-- Two agents; online actors answer `1`, target actors `0`; the critic adds up the actions. -/
def demo : Nets ℚ ℚ ℚ :=
  { actors := fun _ _ s => s + 1, actorTargets := fun _ _ s => s, critics := fun _ _ a => a.sum, criticTargets := fun _ _ a => a.sum,
    visible := fun _ => [0, 1], choice := fun _ => 0, discount := 1 }

def demoRow : Row ℚ ℚ ℚ := { st := fun _ => 0, ac := fun _ => 7, rew := fun _ => 0, nx := fun _ => 10, term := fun _ => false }

/-- **C83 is violated**: the target is `21`, with target actors it would be `20`. -/
theorem C83_violated : ¬ C83_full := by
  intro h
  have := h demo 0 0 demoRow
  revert this
  decide +kernel

theorem C83_violated_values : tdTarget demo 0 0 demoRow = 21 ∧ tdSpec demo 0 0 demoRow = 20 := by decide +kernel

/-- Non-vacuity: with equal networks the values agree. -/
example : tdTarget { demo with actors := demo.actorTargets } 0 0 demoRow = 20 := by decide +kernel

/-! ### C84 -/

/-- The policy loss of the algorithm: the agent's own action is its actor's action in the state of the row, all other actions are those of the
row. -/
def policySpec {S A K : Type} [Field K] (n : Nets S A K) (agent policy : Nat) (rows : List (Row S A K)) : K :=
  -((rows.map fun row => n.critics agent ((n.visible agent).map row.st)
    ((n.visible agent).map fun v => if v = agent then n.actors agent policy (row.st agent) else row.ac v)).sum / (rows.length : K))

/-- C84 in full (every agent listed once and seen by its critic). -/
def C84_full : Prop :=
  ∀ (n : Nets ℚ ℚ ℚ) (agent policy : Nat) (rows : List (Row ℚ ℚ ℚ)), (n.visible agent).Nodup → agent ∈ n.visible agent →
    policyLoss n agent policy rows = .ok (policySpec n agent policy rows)

theorem map_set_idxOf {A : Type} (l : List Nat) (hn : l.Nodup) (a : Nat) (f : Nat → A) (x : A) :
    (l.map f).set (l.idxOf a) x = l.map fun v => if v = a then x else f v := by
  induction l with
  | nil => rfl
  | cons y ys ih =>
    rw [List.nodup_cons] at hn
    by_cases h : y = a
    · subst h
      simp only [List.idxOf_cons_self, List.map_cons, List.set_cons_zero, if_true]
      congr 1
      apply List.map_congr_left
      intro v hv
      rw [if_neg]
      rintro rfl
      exact hn.1 hv
    · have hb : (y == a) = false := by simpa using h
      rw [List.idxOf_cons, hb]
      simp only [cond_false, List.map_cons, List.set_cons_succ, h, if_false]
      rw [ih hn.2]

/-- **C84** (partial): the actions handed to the critic are those of the row, except that of the agent; the loss is that of the algorithm if
state and next state of the agent are the same. Missing: states that change. -/
theorem C84_policy_loss_partial {S A K : Type} [Field K] (n : Nets S A K) (agent policy : Nat) (rows : List (Row S A K))
    (hn : (n.visible agent).Nodup) (ha : agent ∈ n.visible agent) :
    policyLoss n agent policy rows = .ok (-mean (rows.map fun row => n.critics agent ((n.visible agent).map row.st)
      ((n.visible agent).map fun v => if v = agent then n.actors agent policy (row.nx agent) else row.ac v))) ∧
    ((∀ row ∈ rows, row.nx agent = row.st agent) → policyLoss n agent policy rows = .ok (policySpec n agent policy rows)) := by
  have h1 : policyLoss n agent policy rows = .ok (-mean (rows.map fun row => n.critics agent ((n.visible agent).map row.st)
      ((n.visible agent).map fun v => if v = agent then n.actors agent policy (row.nx agent) else row.ac v))) := by
    unfold policyLoss policyActions
    rw [if_pos ha]
    simp only [map_set_idxOf _ hn]
  refine ⟨h1, fun h => ?_⟩
  rw [h1]
  unfold policySpec mean
  rw [List.length_map]
  congr 4
  apply List.map_congr_left
  intro row hr
  rw [h row hr]

/-- **C84 is violated**: at state `0` and next state `10` the actor's action is `1`, the loss uses `11`. -/
theorem C84_violated : ¬ C84_full := by
  intro h
  have := h demo 0 0 [demoRow] (by decide) (by decide)
  revert this
  decide +kernel

theorem C84_violated_values : policyLoss demo 0 0 [demoRow] = .ok (-18) ∧ policySpec demo 0 0 [demoRow] = -8 := by decide +kernel

/-- A critic that does not see its own actor is an error. -/
example : policyLoss { demo with visible := fun _ => [1] } 0 0 [demoRow] = .error .value := by decide +kernel

/-- Non-vacuity. -/
example : policyLoss demo 0 0 [{ demoRow with nx := demoRow.st }] = .ok (-8) := by decide +kernel

/-! ### C85 -/

/-- The value a sub-policy's actions are estimated to have: minus its policy loss. -/
def estimated {S A K : Type} [Field K] (n : Nets S A K) (agent policy : Nat) (rows : List (Row S A K)) : K :=
  mean (rows.map fun row => n.critics agent ((n.visible agent).map row.st) (policyActions n agent policy row))

/-- All pairs of a sub-policy and an agent. -/
def pairs (ensemble agents : Nat) : List (Nat × Nat) := (List.range ensemble).flatMap fun e => (List.range agents).map fun a => (e, a)

/-- C85 in full. -/
def C85_full : Prop :=
  ∀ (crit : ℚ → ℚ → ℚ) (n : Nets ℚ ℚ ℚ) (ensemble agents : Nat) (batches : Nat → List (Row ℚ ℚ ℚ)),
    (∀ a < agents, a ∈ n.visible a) →
    updateResult crit n ensemble agents batches =
      .ok (mean ((pairs ensemble agents).map fun p => estimated n p.2 p.1 (batches p.1)),
        mean ((pairs ensemble agents).map fun p => valueLoss crit n p.2 p.1 (batches p.1)))

theorem collect_ok {K : Type} (l : List K) : collect (l.map Except.ok) = .ok l := by
  induction l with
  | nil => rfl
  | cons x xs ih => simp [collect, ih]

/-- **C85** (partial): the second number is the mean value loss; the first is *minus* the mean estimated value. Missing: the sign. -/
theorem C85_update_result_partial {S A K : Type} [Field K] (crit : K → K → K) (n : Nets S A K) (ensemble agents : Nat)
    (batches : Nat → List (Row S A K)) (hv : ∀ a < agents, a ∈ n.visible a) :
    updateResult crit n ensemble agents batches =
      .ok (-mean ((pairs ensemble agents).map fun p => estimated n p.2 p.1 (batches p.1)),
        mean ((pairs ensemble agents).map fun p => valueLoss crit n p.2 p.1 (batches p.1))) := by
  have hjobs : ((List.range ensemble).flatMap fun e => (List.range agents).map fun a => subPolicyResult crit n a e (batches e)) =
      ((pairs ensemble agents).map fun p => (estimated n p.2 p.1 (batches p.1), valueLoss crit n p.2 p.1 (batches p.1))).map Except.ok := by
    unfold pairs
    rw [List.map_map, List.map_flatMap]
    congr 1
    funext e
    rw [List.map_map]
    apply List.map_congr_left
    intro a ha
    unfold subPolicyResult policyLoss
    rw [if_pos (hv a (List.mem_range.mp ha))]
    simp [estimated]
  unfold updateResult
  simp only
  rw [hjobs, collect_ok]
  simp only [List.map_map]
  rfl

theorem collect_error {K : Type} (e : Err) : ∀ l : List (Except Err K), (∀ r ∈ l, ∀ e', r = .error e' → e' = e) → .error e ∈ l → collect l = .error e
  | [], _, h => absurd h List.not_mem_nil
  | .error e' :: l, h, _ => by rw [h _ List.mem_cons_self e' rfl]; rfl
  | .ok x :: l, h, hm => by
    have hm' : .error e ∈ l := by simpa using hm
    simp only [collect, collect_error e l (fun r hr => h r (List.mem_cons_of_mem _ hr)) hm']

/-- **C85** (partial): `update` raises `ValueError` if the critic of some agent does not see that agent. -/
theorem C85_unseen_partial {S A K : Type} [Field K] (crit : K → K → K) (n : Nets S A K) (ensemble agents : Nat)
    (batches : Nat → List (Row S A K)) (he : 1 ≤ ensemble) (a : Nat) (ha : a < agents) (hv : a ∉ n.visible a) :
    updateResult crit n ensemble agents batches = .error .value := by
  unfold updateResult
  simp only
  rw [collect_error .value]
  · intro r hr e' h
    obtain ⟨e, -, hr⟩ := List.mem_flatMap.1 hr
    obtain ⟨b, -, rfl⟩ := List.mem_map.1 hr
    unfold subPolicyResult policyLoss at h
    by_cases hb : b ∈ n.visible b
    · rw [if_pos hb] at h; cases h
    · rw [if_neg hb] at h; cases h; rfl
  · refine List.mem_flatMap.2 ⟨0, List.mem_range.2 he, List.mem_map.2 ⟨a, List.mem_range.2 ha, ?_⟩⟩
    unfold subPolicyResult policyLoss
    rw [if_neg hv]

/-- Two agents, the critic of the second one sees only the first. -/
example : updateResult (fun a b => a - b) { demo with visible := fun _ => [0] } 1 2 (fun _ => [demoRow]) = .error .value ∧ 1 ∉ [0] := by decide +kernel

/-- **C85 is violated**: the value of the actions is `18`, `update` returns `-18`. -/
theorem C85_violated : ¬ C85_full := by
  intro h
  have := h (fun a b => (a - b) * (a - b)) demo 1 2 (fun _ => [demoRow]) (by
    intro a ha
    show a ∈ [0, 1]
    simp only [List.mem_cons, List.not_mem_nil, or_false]
    omega)
  revert this
  decide +kernel

/-- Non-vacuity: two agents, one sub-policy. -/
example : updateResult (fun a b => a - b) demo 1 2 (fun _ => [demoRow]) = .ok (-18, -7) := by decide +kernel

/-! ### C86 -/

mutual

/-- All leaves of the object are tensors or `None`. -/
def OnlyTensors : Obj → Prop
  | .tensor _ => True
  | .pyNone => True
  | .other _ => False
  | .list l => OnlyTensorsAll l
  | .tuple l => OnlyTensorsAll l
  | .dict l => OnlyTensorsDict l

def OnlyTensorsAll : List Obj → Prop
  | [] => True
  | o :: l => OnlyTensors o ∧ OnlyTensorsAll l

def OnlyTensorsDict : List (String × Obj) → Prop
  | [] => True
  | p :: l => OnlyTensors p.2 ∧ OnlyTensorsDict l

end

/-- C86 in full. -/
def C86_full : Prop := ∀ o : Obj, moveToShared o = o

mutual

/-- **C86** (partial): objects made of tensors and containers are kept. Missing: numbers, strings and everything else. -/
theorem C86_tensors_kept_partial : ∀ o : Obj, OnlyTensors o → moveToShared o = o
  | .tensor _, _ => by simp [moveToShared]
  | .pyNone, _ => by simp [moveToShared]
  | .other _, h => by simp [OnlyTensors] at h
  | .list l, h => by rw [moveToShared, moveAll_eq l (by simpa [OnlyTensors] using h)]
  | .tuple l, h => by rw [moveToShared, moveAll_eq l (by simpa [OnlyTensors] using h)]
  | .dict l, h => by rw [moveToShared, moveDict_eq l (by simpa [OnlyTensors] using h)]

theorem moveAll_eq : ∀ l : List Obj, OnlyTensorsAll l → moveAll l = l
  | [], _ => by simp [moveAll]
  | o :: l, h => by
    rw [OnlyTensorsAll] at h
    rw [moveAll, C86_tensors_kept_partial o h.1, moveAll_eq l h.2]

theorem moveDict_eq : ∀ l : List (String × Obj), OnlyTensorsDict l → moveDict l = l
  | [], _ => by simp [moveDict]
  | (k, o) :: l, h => by
    rw [OnlyTensorsDict] at h
    rw [moveDict, C86_tensors_kept_partial o h.1, moveDict_eq l h.2]

end

/-- **C86 is violated**: an episode number stored as an additional attribute becomes `None`. -/
theorem C86_violated : ¬ C86_full := by
  intro h
  have := h (.dict [("state", .tensor 0), ("episode", .other 3)])
  simp [moveToShared, moveDict] at this

/-- Non-vacuity. -/
example : OnlyTensors (.list [.tuple [.tensor 0, .tensor 1], .dict [("a", .tensor 2)]]) := by
  simp [OnlyTensors, OnlyTensorsAll, OnlyTensorsDict]

end Machin.Maddpg
