import Verif.Returns.LemmasEpisodes
import Mathlib.Algebra.Order.Ring.Rat
import Mathlib.Data.Fintype.BigOperators

/-! # C232: what values and advantages are on average over the episodes that are played -/

namespace Machin.Returns

open Spec

variable {R S A Ω : Type} [CommRing R] [Fintype A] [Fintype Ω]

/-- C232: the value that `store_episode` gives to a step is, on average and given everything known when its action was taken, the value of that action
in its state: the critic is trained towards the right numbers. -/
theorem C232_values (e : Env R S A Ω) (pi : S → A → R) (rank : S → Nat) (hr : Ending e rank) (hf : Fair e pi) (g : R) (Q : S → A → R) (V : S → R)
    (hx : Exact e pi g Q V) (n : Nat) (s : S) (hn : rank s < n) (w : List (A × Tr R S) → S → A → R) :
    avg e pi n s (fun ep => weighted w ep (values g (ep.map (·.2.reward)))) =
      avg e pi n s (fun ep => weighted w ep (ep.map fun x => Q x.2.state x.1)) :=
  avg_weighted e pi rank hr hf (fun ep => values g (ep.map (·.2.reward))) (fun ep => first (values g (ep.map (·.2.reward)))) Q
    (fun x l => by simp only [List.map_cons]; exact values_tail g _ _)
    (fun n s a h => stepAvg_values e pi rank hr hf g Q V hx n s a h) n s hn w

/-- C232: with an exact critic the advantage of a step is on average the advantage of its action, whatever `gae_lambda` is. -/
theorem C232_advantages [DecidableEq R] (e : Env R S A Ω) (pi : S → A → R) (rank : S → Nat) (hr : Ending e rank) (hf : Fair e pi) (g l : R)
    (Q : S → A → R) (V : S → R) (hx : Exact e pi g Q V) (n : Nat) (s : S) (hn : rank s < n) (w : List (A × Tr R S) → S → A → R) :
    avg e pi n s (fun ep => weighted w ep (gae g l V (ep.map (·.2)))) =
      avg e pi n s (fun ep => weighted w ep (ep.map fun x => Q x.2.state x.1 - V x.2.state)) := by
  have h1 : avg e pi n s (fun ep => weighted w ep (gae g l V (ep.map (·.2)))) =
      avg e pi n s (fun ep => weighted w ep (gaeGeneral g l V (ep.map (·.2)))) := by
    refine avg_congr _ _ _ _ _ _ fun ep hp => ?_
    obtain ⟨hc, he, -⟩ := hp.shape hr hn
    rw [C47_branches_partial g l V _ hc he]
  rw [h1]
  exact avg_weighted e pi rank hr hf (fun ep => gaeGeneral g l V (ep.map (·.2))) (fun ep => first (gaeGeneral g l V (ep.map (·.2))))
    (fun s a => Q s a - V s) (fun x l' => by simp only [List.map_cons]; exact gaeGeneral_tail g l V _ _)
    (fun n s a h => stepAvg_gae e pi rank hr hf g l Q V hx n s a h) n s hn w

/-- C232: with `gae_lambda` 1 the advantage is on average the value of the action minus the number `b` that the critic predicts, whatever the critic. -/
theorem C232_any_critic [DecidableEq R] (e : Env R S A Ω) (pi : S → A → R) (rank : S → Nat) (hr : Ending e rank) (hf : Fair e pi) (g : R)
    (Q : S → A → R) (V : S → R) (hx : Exact e pi g Q V) (b : S → R) (n : Nat) (s : S) (hn : rank s < n) (w : List (A × Tr R S) → S → A → R) :
    avg e pi n s (fun ep => weighted w ep (gae g 1 b (ep.map (·.2)))) =
      avg e pi n s (fun ep => weighted w ep (ep.map fun x => Q x.2.state x.1 - b x.2.state)) := by
  have hval : ∀ ep : List (A × Tr R S), gae g 1 b (ep.map (·.2)) =
      List.zipWith (fun v x => v - b x.2.state) (values g (ep.map (·.2.reward))) ep := by
    intro ep
    simp [gae, gaeOne, List.zipWith_map_right, Function.comp_def]
  simp only [hval]
  refine avg_weighted e pi rank hr hf (fun ep => List.zipWith (fun v x => v - b x.2.state) (values g (ep.map (·.2.reward))) ep)
    (fun ep => first (values g (ep.map (·.2.reward))) - (ep.head?.map fun x => b x.2.state).getD 0) (fun s a => Q s a - b s) ?_ ?_ n s hn w
  · intro x l
    simp only [List.map_cons]
    rw [values_tail]
    rfl
  · intro n s a h
    have h1 := stepAvg_values e pi rank hr hf g Q V hx n s a h
    have h2 : stepAvg e pi n s a (fun ep => first (values g (ep.map (·.2.reward))) - (ep.head?.map fun x => b x.2.state).getD 0) =
        ∑ o, (e.prob s a o * (if e.term s a o = true then first (values g ([(a, e.tr s a o)].map (·.2.reward)))
          else avg e pi n (e.next s a o) (fun l => first (values g (((a, e.tr s a o) :: l).map (·.2.reward))))) - e.prob s a o * b s) := by
      refine Finset.sum_congr rfl fun o _ => ?_
      rw [← mul_sub]
      congr 1
      by_cases ht : e.term s a o = true
      · rw [if_pos ht, if_pos ht]; rfl
      · rw [if_neg ht, if_neg ht]
        have : avg e pi n (e.next s a o) (fun l => first (values g (((a, e.tr s a o) :: l).map (·.2.reward))) -
            ((((a, e.tr s a o) :: l).head?.map fun x => b x.2.state).getD 0)) =
            avg e pi n (e.next s a o) (fun l => first (values g (((a, e.tr s a o) :: l).map (·.2.reward))) + (-(b s))) := by
          refine avg_congr _ _ _ _ _ _ fun l _ => ?_
          simp [Env.tr, sub_eq_add_neg]
        rw [this, avg_add, avg_const e pi hf, sub_eq_add_neg]
    rw [h2, Finset.sum_sub_distrib, ← Finset.sum_mul, hf.outcomes, one_mul]
    unfold stepAvg at h1
    rw [h1]

/-- The value of a state if at most `n` more steps are counted. -/
def horizon (e : Env R S A Ω) (pi : S → A → R) (g : R) : Nat → S → R
  | 0, _ => 0
  | n + 1, s => ∑ a, pi s a * ∑ o, e.prob s a o * (e.reward s a o + g * if e.term s a o then 0 else horizon e pi g n (e.next s a o))

/-- C232: in an environment in which every episode ends there are exact values, and only one for every state. -/
theorem C232_exact (e : Env R S A Ω) (pi : S → A → R) (rank : S → Nat) (hr : Ending e rank) (g : R) :
    ∃ Q V, Exact e pi g Q V ∧ ∀ Q' V', Exact e pi g Q' V' → Q' = Q ∧ V' = V := by
  have stable : ∀ n m s, rank s < n → rank s < m → horizon e pi g n s = horizon e pi g m s := by
    intro n
    induction n with
    | zero => intro m s h; omega
    | succ n ih =>
      intro m s hn hm
      cases m with
      | zero => omega
      | succ m =>
        unfold horizon
        refine Finset.sum_congr rfl fun a _ => congrArg (pi s a * ·) (Finset.sum_congr rfl fun o _ => ?_)
        by_cases ht : e.term s a o = true
        · rw [if_pos ht, if_pos ht]
        · have := hr s a o (by simpa using ht)
          rw [if_neg ht, if_neg ht, ih m _ (by omega) (by omega)]
  let V : S → R := fun s => horizon e pi g (rank s + 1) s
  let Q : S → A → R := fun s a => ∑ o, e.prob s a o * (e.reward s a o + g * if e.term s a o then 0 else V (e.next s a o))
  refine ⟨Q, V, ⟨fun _ _ => rfl, ?_⟩, ?_⟩
  · intro s
    show horizon e pi g (rank s + 1) s = _
    rw [horizon]
    refine Finset.sum_congr rfl fun a _ => congrArg (pi s a * ·) (Finset.sum_congr rfl fun o _ => ?_)
    by_cases ht : e.term s a o = true
    · rw [if_pos ht, if_pos ht]
    · have := hr s a o (by simpa using ht)
      rw [if_neg ht, if_neg ht, stable (rank s) (rank (e.next s a o) + 1) _ (by omega) (by omega)]
  · intro Q' V' hx
    have hV : ∀ n s, rank s < n → V' s = V s := by
      intro n
      induction n with
      | zero => intro s h; omega
      | succ n ih =>
        intro s hn
        rw [hx.state]
        show _ = horizon e pi g (rank s + 1) s
        rw [horizon]
        refine Finset.sum_congr rfl fun a _ => congrArg (pi s a * ·) ?_
        rw [hx.action]
        refine Finset.sum_congr rfl fun o _ => ?_
        by_cases ht : e.term s a o = true
        · rw [if_pos ht, if_pos ht]
        · have := hr s a o (by simpa using ht)
          rw [if_neg ht, if_neg ht, ih _ (by omega)]
          show _ * (_ + g * horizon e pi g (rank (e.next s a o) + 1) _) = _
          rw [stable (rank (e.next s a o) + 1) (rank s) _ (by omega) (by omega)]
    have hV' : V' = V := funext fun s => hV (rank s + 1) s (by omega)
    refine ⟨?_, hV'⟩
    funext s a
    rw [hx.action, hV']

/-- An environment with states 1 and 0 and two actions: action `true` ends the episode with reward 3; action `false` earns 1 and leads from 1 to 0 or ends
the episode, with equal probabilities; in state 0 it always ends. -/
def sampleEnv : Env ℚ Nat Bool Bool where
  prob _ a o := if a then (if o then 1 else 0) else 1 / 2
  reward _ a _ := if a then 3 else 1
  next _ _ _ := 0
  term s a o := a || o || s == 0

/-- Non-vacuity of C232: every episode ends, probabilities add up to one, and an episode of two steps is played. -/
example : Ending sampleEnv id ∧ Fair sampleEnv (fun _ _ => 1 / 2) ∧
    Exact sampleEnv (fun _ _ => 1 / 2) (1 / 2) (fun s a => if a then 3 else if s = 0 then 1 else 3 / 2) (fun s => if s = 0 then 2 else 9 / 4) ∧
    Played sampleEnv 2 1 [(false, ⟨1, 0, 1, false⟩), (true, ⟨0, 0, 3, true⟩)] := by
  refine ⟨?_, ⟨?_, ?_⟩, ⟨?_, ?_⟩, ?_⟩
  · intro s a o h
    simp only [sampleEnv, Bool.or_eq_false_iff, beq_eq_false_iff_ne] at h
    simp only [id, sampleEnv]
    omega
  · intro s a; cases a <;> simp [sampleEnv]
  · intro s; norm_num
  · intro s a
    cases a
    · by_cases hs : s = 0
      · simp [sampleEnv, hs]
      · simp [sampleEnv, hs]; norm_num
    · simp [sampleEnv]
  · intro s
    by_cases hs : s = 0
    · simp [hs]; norm_num
    · simp [hs]; norm_num
  · exact ⟨false, false, Or.inr ⟨rfl, [(true, ⟨0, 0, 3, true⟩)], ⟨true, true, Or.inl ⟨rfl, rfl⟩⟩, rfl⟩⟩

end Machin.Returns
