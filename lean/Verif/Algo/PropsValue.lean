import Verif.Algo.Spec
import Verif.Algo.LemmasValue

/-! # Properties of the value based algorithms: C91 – C97 -/

namespace Machin.Algo

open Spec

/-! ### C91: targets of DQN -/

/-- What each mode of DQN takes as the value of the next state, in terms of the online row and the target row of that state. -/
def NextValue (mode : Mode) (online target : List ℚ) (v : ℚ) : Prop :=
  match mode with
  | .vanilla => ∃ i, FirstMax online i v
  | .fixedTarget => ∃ i, FirstMax target i v
  | .double => ∃ i w, FirstMax online i w ∧ target[i]? = some v

theorem nextQ_spec {S : Type} {mode : Mode} {q qT : S → List ℚ} {s : S} {v : ℚ} (h : nextQ mode q qT s = .ok v) :
    NextValue mode (q s) (qT s) v := by
  cases mode with
  | vanilla =>
    simp only [nextQ, qCriticize] at h
    cases hr : rowMax (q s) with
    | error e => simp [hr] at h
    | ok p =>
      obtain ⟨w, i⟩ := p
      simp [hr] at h
      subst h
      exact ⟨i, rowMax_spec hr⟩
  | fixedTarget =>
    simp only [nextQ, qCriticize] at h
    cases hr : rowMax (qT s) with
    | error e => simp [hr] at h
    | ok p =>
      obtain ⟨w, i⟩ := p
      simp [hr] at h
      subst h
      exact ⟨i, rowMax_spec hr⟩
  | double =>
    simp only [nextQ, qActDiscrete, qCriticize] at h
    cases hr : rowMax (q s) with
    | error e => simp [hr] at h
    | ok p =>
      obtain ⟨w, i⟩ := p
      simp only [hr, gather, Bool.false_eq_true, ↓reduceIte] at h
      cases ht : (qT s)[i]? with
      | none => simp [ht] at h
      | some u =>
        simp [ht] at h
        subst h
        exact ⟨i, w, rowMax_spec hr, ht⟩

theorem rewardFunction_eq (r γ v : ℚ) (t : Bool) : rewardFunction r γ v t = bellman r γ v t := by
  cases t <;> simp [rewardFunction, bellman]

/-- C91: for every row of the batch, the value trained is the entry of the online network at the action taken, and it is trained
towards the reward, plus the discounted value of the next state of the mode in use unless the row is terminal. -/
theorem C91_targets {S : Type} (mode : Mode) (γ : ℚ) (q qT : S → List ℚ) (batch : List (Tr S Nat)) (ps : List (ℚ × ℚ))
    (h : dqnPairs mode γ q qT batch = .ok ps) :
    ps.length = batch.length ∧
    ∀ (i : Nat) (tr : Tr S Nat), batch[i]? = some tr → ∃ av y v, ps[i]? = some (av, y) ∧ (q tr.state)[tr.action]? = some av ∧
      NextValue mode (q tr.next) (qT tr.next) v ∧ y = bellman tr.reward γ v tr.terminal := by
  unfold dqnPairs at h
  cases h1 : mapE (fun tr : Tr S Nat => gather (qCriticize q qT tr.state false) tr.action) batch with
  | error e => simp [h1] at h
  | ok avs =>
    simp only [h1] at h
    cases h2 : mapE (fun tr : Tr S Nat => nextQ mode q qT tr.next) batch with
    | error e => simp [h2] at h
    | ok vs =>
      simp only [h2, Except.ok.injEq] at h
      obtain ⟨l1, f1⟩ := mapE_ok h1
      obtain ⟨l2, f2⟩ := mapE_ok h2
      subst h
      refine ⟨by simp [l1, l2], ?_⟩
      intro i tr hi
      have hb : i < batch.length := by
        by_contra hc
        rw [List.getElem?_eq_none (Nat.le_of_not_lt hc)] at hi
        cases hi
      have ha : avs[i]? = some (avs[i]'(by omega)) := List.getElem?_eq_getElem _
      have hv : vs[i]? = some (vs[i]'(by omega)) := List.getElem?_eq_getElem _
      refine ⟨avs[i]'(by omega), bellman tr.reward γ (vs[i]'(by omega)) tr.terminal, vs[i]'(by omega), ?_, ?_, ?_, rfl⟩
      · simp only [List.getElem?_zip_eq_some, List.getElem?_map, Option.map_eq_some_iff]
        exact ⟨ha, (tr, vs[i]'(by omega)), by simp [List.getElem?_zip_eq_some, hi, hv], rewardFunction_eq _ _ _ _⟩
      · have := f1 i tr _ hi ha
        simp only [gather, qCriticize] at this
        cases hg : (q tr.state)[tr.action]? with
        | none => simp [hg] at this
        | some u => simp [hg] at this; rw [this]
      · exact nextQ_spec (f2 i tr _ hi hv)

/-- C91: the computation succeeds whenever the networks return rows of the same positive length for every state and the actions
stored are valid indices. -/
theorem C91_total {S : Type} (mode : Mode) (γ : ℚ) (q qT : S → List ℚ) (n : Nat) (hn : 0 < n) (hq : ∀ s, (q s).length = n)
    (hT : ∀ s, (qT s).length = n) (batch : List (Tr S Nat)) (ha : ∀ tr ∈ batch, tr.action < n) :
    ∃ ps, dqnPairs mode γ q qT batch = .ok ps := by
  have h1 : ∃ r, mapE (fun tr : Tr S Nat => gather (qCriticize q qT tr.state false) tr.action) batch = .ok r := by
    apply mapE_total
    intro tr htr
    have : tr.action < (q tr.state).length := by rw [hq]; exact ha tr htr
    exact ⟨(q tr.state)[tr.action], by simp only [gather, qCriticize, Bool.false_eq_true, ↓reduceIte, List.getElem?_eq_getElem this]⟩
  have hne : ∀ s, q s ≠ [] := fun s hc => by have := hq s; rw [hc] at this; simp at this; omega
  have hneT : ∀ s, qT s ≠ [] := fun s hc => by have := hT s; rw [hc] at this; simp at this; omega
  have h2 : ∃ r, mapE (fun tr : Tr S Nat => nextQ mode q qT tr.next) batch = .ok r := by
    apply mapE_total
    intro tr _
    obtain ⟨⟨v, i⟩, hp⟩ := rowMax_total (hne tr.next)
    obtain ⟨⟨w, k⟩, hw⟩ := rowMax_total (hneT tr.next)
    cases mode with
    | vanilla => exact ⟨v, by simp [nextQ, qCriticize, hp]⟩
    | fixedTarget => exact ⟨w, by simp [nextQ, qCriticize, hw]⟩
    | double =>
      have hi : i < (qT tr.next).length := by
        have := (rowMax_spec hp).1
        rw [hT, ← hq tr.next]
        by_contra hc
        rw [List.getElem?_eq_none (Nat.le_of_not_lt hc)] at this
        cases this
      exact ⟨(qT tr.next)[i], by simp [nextQ, qActDiscrete, qCriticize, hp, gather, List.getElem?_eq_getElem hi]⟩
  obtain ⟨a, h1⟩ := h1
  obtain ⟨b, h2⟩ := h2
  exact ⟨_, by simp [dqnPairs, h1, h2]; rfl⟩

/-- C91: the double estimate never exceeds the estimate of the mode `fixed_target`, the over-estimation it is meant to reduce. -/
theorem C91_double_le_fixed (online target : List ℚ) (γ r v w : ℚ) (t : Bool) (hγ : 0 ≤ γ)
    (hv : NextValue .double online target v) (hw : NextValue .fixedTarget online target w) :
    bellman r γ v t ≤ bellman r γ w t := by
  obtain ⟨i, _, _, hi⟩ := hv
  obtain ⟨k, hk, hmax, _⟩ := hw
  have : v ≤ w := hmax v (List.mem_of_getElem? hi)
  unfold bellman
  split
  · exact le_refl _
  · have := mul_le_mul_of_nonneg_left this hγ
    linarith

/-- C91 holds for a batch of two rows, one of them terminal, in mode double: the online network prefers action 1 in the next
state, whose value in the target network is 1 although the target network has a larger value elsewhere. -/
example : dqnPairs .double (1 / 2) (fun s : Bool => if s then [5, 7] else [1, 2]) (fun s => if s then [4, 1] else [0, 3])
    [⟨false, 0, 10, true, false⟩, ⟨false, 1, 10, true, true⟩] = .ok [(1, 10 + 1 / 2), (2, 10)] := by decide +kernel

/-! ### C92: exploration of DQN -/

theorem actNoise_decay (e : Eps) (rows : List (List ℚ)) (draw : ℚ) (random : List Nat) (d : Bool) :
    (actNoise e rows draw random d).1.decay = e.decay := by
  unfold actNoise
  split
  · rfl
  · cases d <;> simp

/-- C92: `epsilon` is the initial value times one factor `decay` for every call that asked for decay and did not fail. -/
theorem C92_epsilon (e : Eps) (cs : List (List (List ℚ) × ℚ × List Nat × Bool)) (hr : ∀ c ∈ cs, ∀ row ∈ c.1, row ≠ []) :
    (actNoises e cs).epsilon = e.epsilon * e.decay ^ (cs.countP fun c => c.2.2.2) ∧ (actNoises e cs).decay = e.decay := by
  induction cs generalizing e with
  | nil => simp [actNoises]
  | cons c cs ih =>
    obtain ⟨best, hb⟩ := mapE_total (f := rowMax) (l := c.1) fun row hrow => rowMax_total (hr c (by simp) row hrow)
    have ih := ih (actNoise e c.1 c.2.1 c.2.2.1 c.2.2.2).1 fun c' hc' => hr c' (by simp [hc'])
    simp only [actNoises]
    rw [ih.1, ih.2, actNoise_decay]
    refine ⟨?_, rfl⟩
    cases hd : c.2.2.2 with
    | true => simp [actNoise, hb, hd, pow_succ]; ring
    | false => simp [actNoise, hb, hd]

/-- C92: with a decay between 0 and 1, `epsilon` stays between 0 and its initial value for ever. -/
theorem C92_range (e : Eps) (cs : List (List (List ℚ) × ℚ × List Nat × Bool)) (h0 : 0 ≤ e.epsilon) (hd0 : 0 ≤ e.decay) (hd1 : e.decay ≤ 1) :
    0 ≤ (actNoises e cs).epsilon ∧ (actNoises e cs).epsilon ≤ e.epsilon := by
  induction cs generalizing e with
  | nil => exact ⟨h0, le_refl _⟩
  | cons c cs ih =>
    have key : 0 ≤ (actNoise e c.1 c.2.1 c.2.2.1 c.2.2.2).1.epsilon ∧ (actNoise e c.1 c.2.1 c.2.2.1 c.2.2.2).1.epsilon ≤ e.epsilon := by
      unfold actNoise
      split
      · exact ⟨h0, le_refl _⟩
      · dsimp only
        split
        · exact ⟨mul_nonneg h0 hd0, by simpa using mul_le_mul_of_nonneg_left hd1 h0⟩
        · exact ⟨h0, le_refl _⟩
    have ih := ih (actNoise e c.1 c.2.1 c.2.2.1 c.2.2.2).1 key.1 (by rw [actNoise_decay]; exact hd0) (by rw [actNoise_decay]; exact hd1)
    exact ⟨ih.1, le_trans ih.2 key.2⟩

/-- C92: the call returns the random actions exactly when the draw is below `epsilon`, otherwise the first best action of every
row. -/
theorem C92_choice (e : Eps) (rows : List (List ℚ)) (draw : ℚ) (random : List Nat) (d : Bool) (acts : List Nat)
    (h : (actNoise e rows draw random d).2 = .ok acts) :
    (draw < e.epsilon → acts = random) ∧
    (e.epsilon ≤ draw → acts.length = rows.length ∧ ∀ (i : Nat) (row : List ℚ), rows[i]? = some row → ∃ a v, acts[i]? = some a ∧ FirstMax row a v) := by
  unfold actNoise at h
  split at h
  · cases h
  · rename_i best hb
    simp only [Except.ok.injEq] at h
    subst h
    refine ⟨fun hd => by simp [hd], fun hd => ?_⟩
    rw [if_neg (not_lt.mpr hd)]
    obtain ⟨l, f⟩ := mapE_ok hb
    refine ⟨by simp [l], ?_⟩
    intro i row hi
    have hlt : i < best.length := by
      rw [l]
      by_contra hc
      rw [List.getElem?_eq_none (Nat.le_of_not_lt hc)] at hi
      cases hi
    have hbi : best[i]? = some best[i] := List.getElem?_eq_getElem hlt
    refine ⟨best[i].2, best[i].1, by simp [hbi], rowMax_spec (f i row _ hi hbi)⟩

example : actNoise ⟨1 / 2, 9 / 10⟩ [[1, 3, 3], [2, 0, 1]] (3 / 4) [0, 1] true = (⟨9 / 20, 9 / 10⟩, .ok [1, 0]) := by decide +kernel

/-! ### C93: the policy loss is the mean over the batch -/

/-- C93 in full: the policy loss of each of the algorithms is minus the average, over all rows of the batch, of the value of the
actor's action. -/
def C93_full : Prop :=
  ∀ (n : Nets Nat Nat) (batch : List (Tr Nat Nat)), batch ≠ [] →
    meanPolicyLoss n batch = -average (batch.map fun tr => n.critic tr.state (n.actor tr.state)) ∧
    ddpgPolicyLoss n batch = .ok (-average (batch.map fun tr => n.critic tr.state (n.actor tr.state)))

/-- C93 is violated by DDPG: `act_value, *_ = self._criticize(...)` takes the tensor apart and keeps its first row. -/
theorem C93_violated : ¬ C93_full := by
  intro h
  have := (h ⟨id, id, fun s _ => s, fun _ _ => 0, fun _ _ => 0, fun _ _ => 0⟩ [⟨0, 0, 0, 0, false⟩, ⟨2, 0, 0, 0, false⟩] (by simp)).2
  revert this
  decide +kernel

/-- C93, the part that holds: TD3, HDDPG and DDPGPer use the average of all rows, and SAC the average of all rows of its own
objective. -/
theorem C93_mean_partial {S A : Type} (n : Nets S A) (batch : List (Tr S A)) (sample : S → A × ℚ) (alpha : ℚ) :
    meanPolicyLoss n batch = -average (batch.map fun tr => n.critic tr.state (n.actor tr.state)) ∧
    sacPolicyLoss n sample alpha batch =
      average (batch.map fun tr => alpha * (sample tr.state).2 -
        min (n.critic tr.state (sample tr.state).1) (n.critic2 tr.state (sample tr.state).1)) := ⟨rfl, rfl⟩

/-- C93, what DDPG does: the loss is minus the value of the first row, and no other row has any influence. It is the documented
loss exactly for batches whose average equals their first row, in particular for batches of one row. -/
theorem C93_ddpg_partial {S A : Type} (n : Nets S A) (tr : Tr S A) (rest : List (Tr S A)) :
    ddpgPolicyLoss n (tr :: rest) = .ok (-n.critic tr.state (n.actor tr.state)) ∧ ddpgPolicyLoss n ([] : List (Tr S A)) = .error .value := by
  simp [ddpgPolicyLoss, mean]

example : meanPolicyLoss (⟨id, id, fun s _ => s, fun _ _ => 0, fun _ _ => 0, fun _ _ => 0⟩ : Nets ℚ ℚ) [⟨1, 0, 0, 0, false⟩, ⟨2, 0, 0, 0, false⟩] = -3 / 2 := by
  decide +kernel

/-! ### C94: targets of DDPG, TD3 and SAC -/

/-- C94: the target of DDPG (and HDDPG, DDPGPer) is the Bellman target with the target critic at the target actor's action. -/
theorem C94_ddpg {S A : Type} (n : Nets S A) (γ : ℚ) (tr : Tr S A) :
    ddpgTarget n γ tr = bellman tr.reward γ (n.criticT tr.next (n.actorT tr.next)) tr.terminal := rewardFunction_eq _ _ _ _

/-- C94: the target of TD3 is the smaller one of the two Bellman targets, with the same action for both target critics. -/
theorem C94_td3 {S A : Type} (n : Nets S A) (noise : A → A) (γ : ℚ) (hγ : 0 ≤ γ) (tr : Tr S A) :
    IsLeast {bellman tr.reward γ (n.criticT tr.next (noise (n.actorT tr.next))) tr.terminal,
      bellman tr.reward γ (n.critic2T tr.next (noise (n.actorT tr.next))) tr.terminal} (td3Target n noise γ tr) := by
  unfold td3Target
  rw [rewardFunction_eq]
  unfold bellman
  split
  · constructor
    · simp
    · rintro x (rfl | rfl) <;> exact le_refl _
  · generalize n.criticT tr.next (noise (n.actorT tr.next)) = a
    generalize n.critic2T tr.next (noise (n.actorT tr.next)) = b
    constructor
    · rcases min_cases a b with ⟨h, _⟩ | ⟨h, _⟩ <;> simp [h]
    · rintro x (rfl | rfl)
      · have := mul_le_mul_of_nonneg_left (min_le_left a b) hγ; linarith
      · have := mul_le_mul_of_nonneg_left (min_le_right a b) hγ; linarith

/-- C94: the target of SAC is the smaller one of the two Bellman targets of the soft values `Q - α log π`, with the same sampled
action and its own log probability for both target critics. -/
theorem C94_sac {S A : Type} (n : Nets S A) (sample : S → A × ℚ) (alpha γ : ℚ) (hγ : 0 ≤ γ) (tr : Tr S A) :
    IsLeast {bellman tr.reward γ (n.criticT tr.next (sample tr.next).1 - alpha * (sample tr.next).2) tr.terminal,
      bellman tr.reward γ (n.critic2T tr.next (sample tr.next).1 - alpha * (sample tr.next).2) tr.terminal}
      (sacTarget n sample alpha γ tr) := by
  unfold sacTarget
  rw [rewardFunction_eq]
  unfold bellman
  split
  · constructor
    · simp
    · rintro x (rfl | rfl) <;> exact le_refl _
  · generalize n.criticT tr.next (sample tr.next).1 = a
    generalize n.critic2T tr.next (sample tr.next).1 = b
    generalize alpha * (sample tr.next).2 = c
    constructor
    · rcases min_cases a b with ⟨h, _⟩ | ⟨h, _⟩ <;> simp [h]
    · rintro x (rfl | rfl)
      · have := mul_le_mul_of_nonneg_left (min_le_left a b) hγ
        linarith [mul_sub γ (min a b) c, mul_sub γ a c]
      · have := mul_le_mul_of_nonneg_left (min_le_right a b) hγ
        linarith [mul_sub γ (min a b) c, mul_sub γ b c]

/-- C94: after a terminal transition nothing but the reward counts, in all three. -/
theorem C94_terminal {S A : Type} (n : Nets S A) (noise : A → A) (sample : S → A × ℚ) (alpha γ : ℚ) (tr : Tr S A) (ht : tr.terminal = true) :
    ddpgTarget n γ tr = tr.reward ∧ td3Target n noise γ tr = tr.reward ∧ sacTarget n sample alpha γ tr = tr.reward := by
  simp [ddpgTarget, td3Target, sacTarget, rewardFunction, ht]

example : td3Target (⟨id, id, fun _ _ => 0, fun s a => s + a, fun _ _ => 0, fun _ a => a⟩ : Nets ℚ ℚ) (· + 1) (1 / 2) ⟨0, 0, 3, 2, false⟩ = 9 / 2 := by
  decide +kernel

/-! ### C95: the entropy weight of SAC -/

/-- C95: whatever the optimizer does, from the first adjustment on the entropy weight lies between `1e-6` and `1e6`; in particular
it stays positive, so its logarithm is defined. -/
theorem C95_range (step : ℚ → ℚ → ℚ) (h : Option ℚ) (alpha : ℚ) (cs : List (Bool × List ℚ))
    (h0 : 1 / 1000000 ≤ alpha ∧ alpha ≤ 1000000) :
    1 / 1000000 ≤ alphaUpdates step h alpha cs ∧ alphaUpdates step h alpha cs ≤ 1000000 := by
  induction cs generalizing alpha with
  | nil => exact h0
  | cons c cs ih =>
    apply ih
    unfold alphaUpdate
    split
    · unfold clamp
      refine ⟨le_min (by norm_num) (le_max_left _ _), min_le_left _ _⟩
    · exact h0

/-- C95: any initial weight is brought into the range by the first adjustment. -/
theorem C95_first (step : ℚ → ℚ → ℚ) (h alpha : ℚ) (l : List ℚ) :
    1 / 1000000 ≤ alphaUpdate step true (some h) alpha l ∧ alphaUpdate step true (some h) alpha l ≤ 1000000 := by
  unfold alphaUpdate clamp
  exact ⟨le_min (by norm_num) (le_max_left _ _), min_le_left _ _⟩

/-- C95: with an optimizer that moves against the gradient, the weight does not decrease when the average entropy (minus the log
probability) of the batch is below the target entropy, and does not increase when it is above. -/
theorem C95_direction (step : ℚ → ℚ → ℚ) (h alpha : ℚ) (l : List ℚ) (hl : l ≠ [])
    (hneg : ∀ x g, g < 0 → x ≤ step x g) (hpos : ∀ x g, 0 < g → step x g ≤ x)
    (h0 : 1 / 1000000 ≤ alpha ∧ alpha ≤ 1000000) :
    (average (l.map (- ·)) < h → alpha ≤ alphaUpdate step true (some h) alpha l) ∧
    (h < average (l.map (- ·)) → alphaUpdate step true (some h) alpha l ≤ alpha) := by
  have hm : average (l.map (- ·)) = -mean l := by
    have : (l.map (- ·)).sum = -l.sum := by
      clear hl
      induction l with
      | nil => simp
      | cons x xs ih => simp only [List.map_cons, List.sum_cons, ih]; ring
    simp only [average, mean, this, List.length_map, neg_div]
  have ha : 0 < alpha := lt_of_lt_of_le (by norm_num) h0.1
  have hg : alphaGrad alpha h l = -((mean l + h) / alpha) := by
    unfold alphaGrad
    rw [mean_add_const l h hl]
  refine ⟨fun hlt => ?_, fun hlt => ?_⟩
  · have : alphaGrad alpha h l < 0 := by
      rw [hg, neg_lt_zero]
      exact div_pos (by rw [hm] at hlt; linarith) ha
    have := hneg alpha _ this
    simp only [alphaUpdate, clamp]
    exact le_min h0.2 (le_trans this (le_max_right _ _))
  · have : 0 < alphaGrad alpha h l := by
      rw [hg, neg_pos]
      exact div_neg_of_neg_of_pos (by rw [hm] at hlt; linarith) ha
    have := hpos alpha _ this
    simp only [alphaUpdate, clamp]
    exact le_trans (min_le_right _ _) (max_le h0.1 this)

/-- C95: without a target entropy, or when the caller asks for no adjustment, the weight is left alone. -/
theorem C95_off (step : ℚ → ℚ → ℚ) (h : Option ℚ) (alpha : ℚ) (l : List ℚ) (b : Bool) (hb : b = false ∨ h = none) :
    alphaUpdate step b h alpha l = alpha := by
  rcases hb with rfl | rfl
  · cases h <;> rfl
  · cases b <;> rfl

/-- Plain gradient descent satisfies the hypotheses of `C95_direction`; here the entropy 2 is below the target 3. -/
example : (∀ x g : ℚ, g < 0 → x ≤ x - 1 / 10 * g) ∧ (∀ x g : ℚ, 0 < g → x - 1 / 10 * g ≤ x) ∧
    alphaUpdate (fun x g => x - 1 / 10 * g) true (some 3) (1 / 2) [-2, -2] = 7 / 10 := by
  refine ⟨fun x g h => by linarith, fun x g h => by linarith, by decide +kernel⟩

/-! ### C96: hysteretic updates -/

/-- C96: with both rates 1 the critic is trained towards the ordinary target. -/
theorem C96_rates_one {S A : Type} (n : Nets S A) (γ : ℚ) (tr : Tr S A) : hddpgTarget n γ 1 1 tr = ddpgTarget n γ tr := by
  unfold hddpgTarget
  dsimp only
  split <;> ring

/-- C96: with rates between 0 and 1 the value trained towards lies between the current value and the ordinary target, and its
distance to the current value is the increase rate, or the decrease rate, times the distance of the ordinary target. -/
theorem C96_hysteresis {S A : Type} (n : Nets S A) (γ inc dec : ℚ) (tr : Tr S A) (hi : 0 ≤ inc ∧ inc ≤ 1) (hd : 0 ≤ dec ∧ dec ≤ 1) :
    Between (n.critic tr.state tr.action) (ddpgTarget n γ tr) (hddpgTarget n γ inc dec tr) ∧
    (n.critic tr.state tr.action < ddpgTarget n γ tr → hddpgTarget n γ inc dec tr - n.critic tr.state tr.action =
      inc * (ddpgTarget n γ tr - n.critic tr.state tr.action)) ∧
    (ddpgTarget n γ tr ≤ n.critic tr.state tr.action → hddpgTarget n γ inc dec tr - n.critic tr.state tr.action =
      dec * (ddpgTarget n γ tr - n.critic tr.state tr.action)) := by
  unfold hddpgTarget Between
  generalize ddpgTarget n γ tr = y
  generalize n.critic tr.state tr.action = c
  refine ⟨?_, fun h => ?_, fun h => ?_⟩
  · dsimp only
    split
    · rename_i h
      left
      constructor
      · nlinarith [mul_nonneg (le_of_lt h) hi.1]
      · nlinarith [mul_nonneg (le_of_lt h) (sub_nonneg.mpr hi.2)]
    · rename_i h
      right
      have h := not_lt.mp h
      constructor
      · nlinarith [mul_nonneg (neg_nonneg.mpr h) (sub_nonneg.mpr hd.2)]
      · nlinarith [mul_nonneg (neg_nonneg.mpr h) hd.1]
  · dsimp only
    rw [if_pos (by linarith)]
    ring
  · dsimp only
    rw [if_neg (by linarith)]
    ring

example : hddpgTarget (⟨id, id, fun _ _ => 4, fun s a => s + a, fun _ _ => 0, fun _ a => a⟩ : Nets ℚ ℚ) (1 / 2) (1 / 2) (1 / 10) ⟨0, 0, 3, 2, false⟩ = 9 / 2 := by
  decide +kernel

/-! ### C97: priorities are temporal difference errors -/

/-- C97 in full: the priorities sent back are the absolute differences of the value of the sampled action and its target, for
DQNPer and for DDPGPer. -/
def C97_full : Prop :=
  (∀ (γ : ℚ) (q qT : Nat → List ℚ) (batch : List (Tr Nat Nat)) (crit : ℚ → ℚ → ℚ) (w : List ℚ) (loss : ℚ) (pr : List ℚ)
    (ps : List (ℚ × ℚ)), dqnPairs .double γ q qT batch = .ok ps → dqnPer γ q qT batch crit w = .ok (loss, pr) →
      pr = ps.map fun p => |p.1 - p.2|) ∧
  (∀ (n : Nets Nat Nat) (trained : Nat → Nat → ℚ) (γ : ℚ) (batch : List (Tr Nat Nat)),
    ddpgPerPriorities n trained γ batch = batch.map fun tr => |n.critic tr.state tr.action - ddpgTarget n γ tr|)

/-- C97 is violated by DDPGPer: the priorities are computed from the value of the actor's own action (`act_value`, with the
critic already changed) instead of the value of the sampled action. Here the sampled action has no error at all and the critic
is unchanged, but the priority is 5. -/
theorem C97_violated : ¬ C97_full := by
  intro h
  have := h.2 ⟨fun _ => 1, fun _ => 0, fun _ a => if a = 0 then 0 else 5, fun _ _ => 0, fun _ _ => 0, fun _ _ => 0⟩
    (fun _ a => if a = 0 then 0 else 5) 0 [⟨0, 0, 0, 0, false⟩]
  revert this
  decide +kernel

/-- C97, the part that holds: DQNPer sends back the absolute error of the sampled action, one per row, and its loss is the
average of the weighted losses of the rows. -/
theorem C97_dqn_partial {S : Type} (γ : ℚ) (q qT : S → List ℚ) (batch : List (Tr S Nat)) (crit : ℚ → ℚ → ℚ) (w : List ℚ) (loss : ℚ)
    (pr : List ℚ) (h : dqnPer γ q qT batch crit w = .ok (loss, pr)) :
    ∃ ps : List (ℚ × ℚ), dqnPairs .double γ q qT batch = .ok ps ∧ pr.length = batch.length ∧
      (∀ (i : Nat) (av y : ℚ), ps[i]? = some (av, y) → pr[i]? = some |av - y|) ∧
      loss = average (List.zipWith (fun p wi => crit p.1 p.2 * wi) ps w) := by
  unfold dqnPer at h
  cases hp : dqnPairs .double γ q qT batch with
  | error e => simp [hp] at h
  | ok ps =>
    simp only [hp, Except.ok.injEq, Prod.mk.injEq] at h
    obtain ⟨h1, h2⟩ := h
    have hl := (C91_targets .double γ q qT batch ps hp).1
    refine ⟨ps, rfl, by rw [← h2]; simp [hl], ?_, ?_⟩
    · intro i av y hi
      rw [← h2]
      simp [hi]
    · rw [← h1]
      unfold mean average
      have : (ps.zip w).map (fun p => crit p.1.1 p.1.2 * p.2) = List.zipWith (fun p wi => crit p.1 p.2 * wi) ps w := by
        rw [List.zip, List.map_zipWith]
      rw [this]

/-- C97, what DDPGPer does: the priority of a row is the error of the actor's action under the trained critic. It is the temporal
difference error when the sampled action is the actor's and the critic did not change. -/
theorem C97_ddpg_partial {S A : Type} (n : Nets S A) (γ : ℚ) (batch : List (Tr S A)) (h : ∀ tr ∈ batch, tr.action = n.actor tr.state) :
    ddpgPerPriorities n n.critic γ batch = batch.map fun tr => |n.critic tr.state tr.action - ddpgTarget n γ tr| := by
  unfold ddpgPerPriorities
  apply List.map_congr_left
  intro tr htr
  rw [h tr htr]

example : dqnPer (1 / 2) (fun s : Bool => if s then [5, 7] else [1, 2]) (fun s => if s then [4, 1] else [0, 3])
    [⟨false, 0, 10, true, false⟩, ⟨false, 1, 10, true, true⟩] (fun a b => (a - b) ^ 2) [1, 1 / 2] = .ok (489 / 8, [19 / 2, 8]) := by
  decide +kernel

end Machin.Algo
