import Verif.Impala.LemmasEpisodes
import Verif.Impala.Props
import Verif.Returns.PropsEpisodes
import Verif.Impala.SpecEpisodes
import Mathlib.Tactic.NormNum
import Mathlib.Tactic.LinearCombination

/-!
# C237: what the v-trace targets of IMPALA are on average

A critic that is the value function of the clipped policy should be a fixed point: on average, given what was known when a step began, the target of the
step is the value of its state. It is not, because the target of the last step of every episode is 0; what is missing is given exactly.
-/

namespace Machin.Impala

open Finset Machin.Returns Machin.Returns.Spec Spec

/-- The full statement: with the value function of the clipped policy as critic, the targets of the episodes which the behaviour policy plays are on average
the values of the states, given the steps before and the state. -/
def C237_full : Prop :=
  ∀ (S A Ω : Type) (_ : Fintype A) (_ : Fintype Ω) (e : Env ℚ S A Ω) (mu ratio : S → A → ℚ) (h : Hyper ℚ) (V : S → ℚ) (rank : S → Nat),
    Ending e rank → Fair e mu → Fixed e mu ratio h V → ∀ (n : Nat) (s : S), rank s < n → ∀ w : List (A × Tr ℚ S) → S → ℚ,
      avg e mu n s (fun ep => weighted (fun p s _ => w p s) ep (vtrace h (ep.map (record ratio V)) [ep.length]).1) =
      avg e mu n s (fun ep => weighted (fun p s _ => w p s) ep (ep.map fun x => V x.2.state))

/-- An episode of one step with reward 1, ratio 1 and the right critic: the target is 0. -/
theorem C237_violated : ¬ C237_full := by
  intro hf
  have := hf Unit Unit Unit inferInstance inferInstance ⟨fun _ _ _ => 1, fun _ _ _ => 1, fun _ _ _ => (), fun _ _ _ => true⟩ (fun _ _ => 1) (fun _ _ => 1)
    ⟨1, 1, 1⟩ (fun _ => 1) (fun _ => 0) (by intro s a o h; cases h) ⟨by simp, by simp⟩ (by intro s; simp) 1 () (by decide) (fun _ _ => 1)
  simp [avg, weighted, record, Env.tr, vtrace, epLoop, revLoop] at this

section

variable {K S A Ω : Type} [CommRing K] [LinearOrder K] [Fintype A] [Fintype Ω]

/-- The target of the first step together with what is missing is right on average. -/
theorem avg_complete (e : Env K S A Ω) (mu ratio : S → A → K) (h : Hyper K) (V : S → K) (rank : S → Nat) (hr : Ending e rank) (hf : Fair e mu)
    (hx : Fixed e mu ratio h V) (n : Nat) (s : S) (hn : rank s < n) :
    avg e mu n s (fun ep => first (targets h (ep.map (record ratio V))) + lost h (ep.map (record ratio V))) = V s := by
  induction n generalizing s with
  | zero => omega
  | succ n ih =>
    have hs : ∀ a, stepAvg e mu n s a (fun ep => first (targets h (ep.map (record ratio V))) + lost h (ep.map (record ratio V))) =
        V s + ∑ o, e.prob s a o *
          (min h.clipRho (ratio s a) * (e.reward s a o + h.discount * (if e.term s a o then 0 else V (e.next s a o)) - V s)) := by
      intro a
      have h1 : V s = ∑ o, e.prob s a o * V s := by rw [← Finset.sum_mul, hf.outcomes, one_mul]
      conv_rhs => lhs; rw [h1]
      rw [← Finset.sum_add_distrib]
      refine Finset.sum_congr rfl fun o _ => ?_
      rw [← mul_add]
      refine congrArg (e.prob s a o * ·) ?_
      by_cases ht : e.term s a o = true
      · rw [if_pos ht]
        simp only [List.map_cons, List.map_nil, first_targets_single, lost, record, Env.tr, zero_add, ht, if_true]
      · rw [if_neg ht, if_neg ht]
        have hlt : rank (e.next s a o) < n := by have := hr s a o (by simpa using ht); omega
        have h2 : avg e mu n (e.next s a o) (fun l => first (targets h (((a, e.tr s a o) :: l).map (record ratio V))) +
              lost h (((a, e.tr s a o) :: l).map (record ratio V))) =
            avg e mu n (e.next s a o) (fun l =>
              (V s + min h.clipRho (ratio s a) * (e.reward s a o + h.discount * V (e.next s a o) - V s) -
                h.discount * min h.clipC (ratio s a) * V (e.next s a o)) +
              h.discount * min h.clipC (ratio s a) * (first (targets h (l.map (record ratio V))) + lost h (l.map (record ratio V)))) := by
          refine avg_congr _ _ _ _ _ _ fun l hp => ?_
          obtain ⟨-, -, x, l', rfl, hxs⟩ := hp.shape hr hlt
          simp only [List.map_cons]
          rw [first_targets]
          have hv : (record ratio V x).value = V (e.next s a o) := by rw [← hxs]; rfl
          have hd : deltaOf h (record ratio V (a, e.tr s a o)) =
              min h.clipRho (ratio s a) * (e.reward s a o + h.discount * V (e.next s a o) - V s) := by
            simp [deltaOf, rhoOf, record, Env.tr, ht]
          rw [hv, hd]
          simp only [lost, cOf, record, Env.tr]
          ring
        rw [h2, avg_add, avg_const e mu hf, avg_mul, ih _ hlt]
        ring
    rw [avg_succ, Finset.sum_congr rfl fun a _ => by rw [hs a, mul_add], Finset.sum_add_distrib, hx s, ← Finset.sum_mul, hf.actions, one_mul, add_zero]

omit [LinearOrder K] [Fintype A] [Fintype Ω] in
theorem weighted_add (w : List (A × Tr K S) → S → A → K) (ep : List (A × Tr K S)) (us vs : List K) (hl : us.length = vs.length) :
    weighted w ep (us.zipWith (· + ·) vs) = weighted w ep us + weighted w ep vs := by
  induction ep generalizing us vs w with
  | nil => simp [weighted]
  | cons x ep ih =>
    rcases us with _ | ⟨u, us⟩ <;> rcases vs with _ | ⟨v, vs⟩
    · simp [weighted]
    · simp at hl
    · simp at hl
    · simp only [List.zipWith_cons_cons, weighted]
      rw [ih _ _ _ (by simpa using hl)]
      ring

omit [Fintype A] [Fintype Ω] in
theorem losts_length (h : Hyper K) (l : List (Datum K)) : (losts h l).length = l.length := by
  induction l with
  | nil => rfl
  | cons x l ih => simp [losts, ih]

omit [Fintype A] [Fintype Ω] in
theorem lostAdvantages_length (h : Hyper K) (l : List (Datum K)) : (lostAdvantages h l).length = l.length := by
  induction l with
  | nil => rfl
  | cons x l ih => simp [lostAdvantages, ih]

omit [LinearOrder K] in
theorem avg_sub_of_add (e : Env K S A Ω) (mu : S → A → K) (n : Nat) (s : S) (f g f' : List (A × Tr K S) → K)
    (hh : avg e mu n s (fun ep => f ep + g ep) = avg e mu n s f') : avg e mu n s f = avg e mu n s f' - avg e mu n s g := by
  rw [avg_add] at hh
  linear_combination hh

/-- What holds: the targets are the values of the states minus what is missing because the last step has the target 0: the target which the last step should
have, times the discount and the clipped ratio of every step in between. Missing: that nothing is missing, which is false (`C237_violated`). -/
theorem C237_missing_partial (e : Env K S A Ω) (mu ratio : S → A → K) (h : Hyper K) (V : S → K) (rank : S → Nat) (hr : Ending e rank) (hf : Fair e mu)
    (hx : Fixed e mu ratio h V) (n : Nat) (s : S) (hn : rank s < n) (w : List (A × Tr K S) → S → K) :
    avg e mu n s (fun ep => weighted (fun p s _ => w p s) ep (vtrace h (ep.map (record ratio V)) [ep.length]).1) =
      avg e mu n s (fun ep => weighted (fun p s _ => w p s) ep (ep.map fun x => V x.2.state)) -
      avg e mu n s (fun ep => weighted (fun p s _ => w p s) ep (losts h (ep.map (record ratio V)))) := by
  apply avg_sub_of_add
  have key := avg_weighted_state e mu rank hr
    (fun ep => (targets h (ep.map (record ratio V))).zipWith (· + ·) (losts h (ep.map (record ratio V))))
    (fun ep => ep.map fun x => V x.2.state)
    (fun ep => first (targets h (ep.map (record ratio V))) + lost h (ep.map (record ratio V)))
    (fun ep => (ep.head?.map fun x => V x.2.state).getD 0)
    (fun x l => by
      simp only [List.map_cons]
      rw [targets_tail, losts]
      simp [first])
    (fun x l => by simp)
    (fun n s hn => by
      rw [avg_complete e mu ratio h V rank hr hf hx n s hn]
      refine (Eq.trans (avg_congr _ _ _ _ _ _ fun l hp => ?_) (avg_const e mu hf n s (V s))).symm
      obtain ⟨-, -, x, l', rfl, hxs⟩ := hp.shape hr hn
      simp [hxs])
    n s hn w
  rw [← key]
  refine avg_congr _ _ _ _ _ _ fun ep _ => ?_
  have hl : (targets h (ep.map (record ratio V))).length = (losts h (ep.map (record ratio V))).length := by
    rw [targets_length, losts_length]
  show weighted (fun p s _ => w p s) ep (vtrace h (ep.map (record ratio V)) [ep.length]).1 + _ = _
  rw [weighted_add _ _ _ _ hl]
  unfold targets
  rw [List.length_map]

/-- Where the last steps of all episodes should have the target 0, nothing is missing. -/
theorem C237_zero_partial (e : Env K S A Ω) (mu ratio : S → A → K) (h : Hyper K) (V : S → K) (rank : S → Nat) (hr : Ending e rank) (hf : Fair e mu)
    (hx : Fixed e mu ratio h V) (hz : ∀ s a o, e.term s a o = true → V s + min h.clipRho (ratio s a) * (e.reward s a o - V s) = 0)
    (n : Nat) (s : S) (hn : rank s < n) (w : List (A × Tr K S) → S → K) :
    avg e mu n s (fun ep => weighted (fun p s _ => w p s) ep (vtrace h (ep.map (record ratio V)) [ep.length]).1) =
      avg e mu n s (fun ep => weighted (fun p s _ => w p s) ep (ep.map fun x => V x.2.state)) := by
  have hzero : ∀ n s, rank s < n → ∀ w : List (A × Tr K S) → S → K,
      avg e mu n s (fun ep => weighted (fun p s _ => w p s) ep (losts h (ep.map (record ratio V)))) = 0 := by
    intro n s hn w
    rw [← avg_const e mu hf n s 0]
    refine avg_congr _ _ _ _ _ _ fun ep hp => ?_
    have h0 : ∀ n s (ep : List (A × Tr K S)), rank s < n → Played e n s ep → lost h (ep.map (record ratio V)) = 0 ∧
        ∀ w : List (A × Tr K S) → S → K, weighted (fun p s _ => w p s) ep (losts h (ep.map (record ratio V))) = 0 := by
      intro n
      induction n with
      | zero => intro s ep hn; omega
      | succ n ih =>
        intro s ep hn hp
        obtain ⟨a, o, ⟨ht, rfl⟩ | ⟨ht, l, hl, rfl⟩⟩ := hp
        · have hl : lost h ([(a, e.tr s a o)].map (record ratio V)) = 0 := by
            simp only [List.map_cons, List.map_nil, lost, record, Env.tr, ht, if_true, mul_zero, add_zero]
            exact hz s a o ht
          refine ⟨hl, fun w => ?_⟩
          simp only [List.map_cons, List.map_nil] at hl
          simp only [List.map_cons, List.map_nil, losts, weighted, hl, mul_zero, add_zero]
        · have hlt : rank (e.next s a o) < n := by have := hr s a o ht; omega
          obtain ⟨i1, i2⟩ := ih _ l hlt hl
          obtain ⟨-, -, x, l', rfl, -⟩ := hl.shape hr hlt
          simp only [List.map_cons] at i1 i2
          refine ⟨?_, fun w => ?_⟩
          · simp only [List.map_cons, lost, i1, mul_zero]
          · have := i2 fun p s' => w ((a, e.tr s a o) :: p) s'
            simp only [List.map_cons, losts, weighted] at this ⊢
            simp only [lost, i1, mul_zero, zero_add]
            simpa [i1] using this
    exact (h0 n s ep hn hp).2 w
  rw [C237_missing_partial e mu ratio h V rank hr hf hx n s hn w, hzero n s hn w, sub_zero]

/-- The factor of the log-probability in the policy loss: on average, given the steps before, the state and the action, `rho * (Q - V)` minus `rho * g` times
what the target of the next step lacks. -/
theorem C237_policy_partial (e : Env K S A Ω) (mu ratio : S → A → K) (h : Hyper K) (V : S → K) (rank : S → Nat) (hr : Ending e rank) (hf : Fair e mu)
    (hx : Fixed e mu ratio h V) (n : Nat) (s : S) (hn : rank s < n) (w : List (A × Tr K S) → S → A → K) :
    avg e mu n s (fun ep => weighted w ep
        (advantages h (ep.map (record ratio V)) (vtrace h (ep.map (record ratio V)) [ep.length]).2)) =
      avg e mu n s (fun ep => weighted w ep (ep.map fun x => min h.clipRho (ratio x.2.state x.1) *
        (∑ o, e.prob x.2.state x.1 o * (e.reward x.2.state x.1 o +
          h.discount * if e.term x.2.state x.1 o then 0 else V (e.next x.2.state x.1 o)) - V x.2.state))) -
      avg e mu n s (fun ep => weighted w ep (lostAdvantages h (ep.map (record ratio V)))) := by
  apply avg_sub_of_add
  have hadv : ∀ x (l : List (Datum K)), advantages h (x :: l) (targets h l ++ [0]) =
      (rhoOf h x * (x.reward + h.discount * first (targets h l) - x.value)) :: advantages h l ((targets h l).tail ++ [0]) := by
    intro x l
    have hl := targets_length h l
    unfold advantages
    generalize targets h l = u at hl ⊢
    rcases u with _ | ⟨u, us⟩
    · rcases l with _ | ⟨y, l⟩
      · simp [first]
      · simp at hl
    · simp [first]
  have key := avg_weighted e mu rank hr hf
    (fun ep => (advantages h (ep.map (record ratio V)) ((targets h (ep.map (record ratio V))).tail ++ [0])).zipWith (· + ·)
      (lostAdvantages h (ep.map (record ratio V))))
    (fun ep => match ep with
      | [] => 0
      | x :: l => min h.clipRho (ratio x.2.state x.1) * (x.2.reward - V x.2.state) + min h.clipRho (ratio x.2.state x.1) * h.discount *
          (first (targets h (l.map (record ratio V))) + lost h (l.map (record ratio V))))
    (fun s a => min h.clipRho (ratio s a) *
      (∑ o, e.prob s a o * (e.reward s a o + h.discount * if e.term s a o then 0 else V (e.next s a o)) - V s))
    (fun x l => by
      simp only [List.map_cons]
      rw [targets_tail h (record ratio V x), List.tail_cons, hadv, lostAdvantages]
      simp only [List.zipWith_cons_cons]
      congr 1
      simp only [rhoOf, record]
      ring)
    (fun n s a hn => by
      have hsum : ∀ o, e.prob s a o * (min h.clipRho (ratio s a) *
            (e.reward s a o + h.discount * (if e.term s a o then 0 else V (e.next s a o)) - V s)) =
          e.prob s a o * (if e.term s a o then min h.clipRho (ratio s a) * (e.reward s a o - V s) + min h.clipRho (ratio s a) * h.discount *
            (first (targets h []) + lost h []) else avg e mu n (e.next s a o) fun l => min h.clipRho (ratio s a) * (e.reward s a o - V s) +
              min h.clipRho (ratio s a) * h.discount * (first (targets h (l.map (record ratio V))) + lost h (l.map (record ratio V)))) := by
        intro o
        refine congrArg (e.prob s a o * ·) ?_
        by_cases ht : e.term s a o = true
        · rw [if_pos ht, if_pos ht]
          have : first (targets h ([] : List (Datum K))) = 0 := rfl
          rw [this]
          simp [lost]
        · rw [if_neg ht, if_neg ht]
          have hlt : rank (e.next s a o) < n := by have := hr s a o (by simpa using ht); omega
          rw [avg_add, avg_const e mu hf, avg_mul, avg_complete e mu ratio h V rank hr hf hx n _ hlt]
          ring
      unfold stepAvg
      refine (Finset.sum_congr rfl fun o _ => (hsum o).symm).trans ?_
      rw [Finset.sum_congr rfl fun o _ => mul_left_comm _ _ _, ← Finset.mul_sum]
      refine congrArg (min h.clipRho (ratio s a) * ·) ?_
      rw [Finset.sum_congr rfl fun o _ => mul_sub _ _ _, Finset.sum_sub_distrib, ← Finset.sum_mul, hf.outcomes, one_mul])
    n s hn w
  rw [← key]
  refine avg_congr _ _ _ _ _ _ fun ep hp => ?_
  obtain ⟨-, -, x, l', rfl, -⟩ := hp.shape hr hn
  have hsh := C51_shifted h ((x :: l').map (record ratio V)) (by simp)
  rw [List.length_map] at hsh
  rw [hsh]
  have ht : (vtrace h ((x :: l').map (record ratio V)) [(x :: l').length]).1 = targets h ((x :: l').map (record ratio V)) := by
    unfold targets; rw [List.length_map]
  rw [ht, weighted_add]
  have hl := targets_length h ((x :: l').map (record ratio V))
  rw [lostAdvantages_length]
  simp only [advantages, List.length_zipWith, List.length_append, List.length_tail, hl]
  simp

/-- What the critic of C237 is where no ratio is clipped: the value function of the learner's policy. -/
theorem C237_unclipped (e : Env K S A Ω) (mu pi ratio : S → A → K) (h : Hyper K) (Q : S → A → K) (V : S → K) (hf : Fair e mu) (hp : Fair e pi)
    (hr : ∀ s a, mu s a * ratio s a = pi s a) (hc : ∀ s a, ratio s a ≤ h.clipRho) (hx : Exact e pi h.discount Q V) : Fixed e mu ratio h V := by
  intro s
  have h1 : ∀ a, mu s a * ∑ o, e.prob s a o * (min h.clipRho (ratio s a) *
      (e.reward s a o + h.discount * (if e.term s a o then 0 else V (e.next s a o)) - V s)) = pi s a * Q s a - pi s a * V s := by
    intro a
    rw [Finset.sum_congr rfl fun o _ => mul_left_comm _ _ _, ← Finset.mul_sum, min_eq_right (hc s a), ← mul_assoc, hr,
      Finset.sum_congr rfl fun o _ => mul_sub _ _ _, Finset.sum_sub_distrib, ← Finset.sum_mul, hf.outcomes, one_mul, ← hx.action, mul_sub]
  rw [Finset.sum_congr rfl fun a _ => h1 a, Finset.sum_sub_distrib, ← hx.state, ← Finset.sum_mul, hp.actions, one_mul, sub_self]

end

/-- Non-vacuity of C237: the environment of C232, played with equal probabilities, for a learner whose policy takes action `true` with probability 1/4. The
critic is right and the first target of the episode of two steps lacks 9/8. -/
example : Ending sampleEnv id ∧ Fair sampleEnv (fun _ _ => 1 / 2) ∧
    Fixed sampleEnv (fun _ _ => 1 / 2) (fun _ a => if a then 1 / 2 else 3 / 2) ⟨1 / 2, 1, 2⟩ (fun s => if s = 0 then 3 / 2 else 57 / 32) ∧
    lost ⟨1 / 2, 1, 2⟩ ([(false, ⟨1, 0, 1, false⟩), (true, ⟨0, 0, 3, true⟩)].map
      (record (fun _ a => if a then 1 / 2 else 3 / 2) (fun s : Nat => if s = 0 then (3 / 2 : ℚ) else 57 / 32))) = 9 / 8 := by
  refine ⟨?_, ⟨?_, ?_⟩, ?_, ?_⟩
  · intro s a o h
    simp only [sampleEnv, Bool.or_eq_false_iff, beq_eq_false_iff_ne] at h
    simp only [id, sampleEnv]
    omega
  · intro s a; cases a <;> simp [sampleEnv]
  · intro s; norm_num
  · intro s
    by_cases hs : s = 0
    · simp [sampleEnv, hs]; norm_num
    · simp [sampleEnv, hs]; norm_num
  · simp [lost, record]; norm_num

end Machin.Impala
