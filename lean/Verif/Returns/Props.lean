import Mathlib.Tactic.Ring
import Verif.Returns.Lemmas
import Mathlib.Algebra.Ring.Rat
import Mathlib.Algebra.Ring.Int.Defs

/-! # Properties of values and advantages: C46, C47, C48, C72 -/

namespace Machin.Returns

open Spec

variable {R S : Type} [CommRing R]

/-! ### C46: values -/

/-- The value stored with step `t` is the discounted sum of the rewards from `t` on. -/
theorem C46_values (g : R) (rs : List R) (t : Nat) (h : t < rs.length) :
    (values g rs)[t]? = some (discounted g (rs.length - t) (fun k => rewardAt rs (t + k))) := by
  rw [values_get g rs t h, horner_eq, List.length_drop]
  congr 1
  exact discounted_congr g _ _ _ (fun k _ => rewardAt_drop rs t k)

theorem C46_length (g : R) (rs : List R) : (values g rs).length = rs.length := values_length g rs

example : values (2 : Int) [1, 10, 100] = [421, 210, 100] := by decide

/-! ### C47: advantages -/

/-- The whole property: for chained episodes, terminal at the end or truncated, the general recursion gives the specified sum, and
the special branches agree with it. -/
def C47_full : Prop :=
  ∀ (g l : Rat) (V : Nat → Rat) (ep : List (Tr Rat Nat)), Chained ep → ∀ t < ep.length,
    (gaeGeneral g l V ep)[t]? = some (discounted (g * l) (ep.length - t) (fun k => deltaAt g V ep (t + k))) ∧
    (gaeOne g V ep)[t]? = (gaeGeneral g 1 V ep)[t]? ∧ (gaeZero g V ep)[t]? = (gaeGeneral g 0 V ep)[t]?

/-- False for a truncated episode of one step: the recursion ignores the value of the state after it, the branch for
`lambda = 0` does not. -/
theorem C47_violated_truncated :
    gaeGeneral (1 : Int) 0 (fun s : Nat => (s : Int)) [⟨0, 5, 1, false⟩] = [1] ∧
    gaeZero (1 : Int) (fun s : Nat => (s : Int)) [⟨0, 5, 1, false⟩] = [6] := by decide

theorem C47_violated : ¬ C47_full := by
  intro h
  have := (h 1 0 (fun s => (s : Rat)) [⟨0, 5, 1, false⟩] trivial 0 (by decide)).2.2
  revert this
  decide +kernel

/-- For chained episodes whose last step is terminal the recursion computes the specified sum. -/
theorem C47_general_partial (g l : R) (V : S → R) (ep : List (Tr R S)) (hc : Chained ep) (he : Ends ep) (t : Nat)
    (h : t < ep.length) :
    (gaeGeneral g l V ep)[t]? = some (discounted (g * l) (ep.length - t) (fun k => deltaAt g V ep (t + k))) := by
  rw [gaeGeneral_get g l V ep t h, gaeLoop_first g l V _ (chained_drop hc t), gaeSum_ends g l V _ (ends_drop he t h), List.length_drop]
  congr 1
  apply discounted_congr
  intro k _
  simp [deltaAt, List.getElem?_drop]

/-- For truncated episodes the sum misses exactly the discounted value of the state after the last step. -/
theorem C47_truncated_partial (g l : R) (V : S → R) (ep : List (Tr R S)) (hc : Chained ep) (last : Tr R S)
    (hl : ep.getLast? = some last) (ht : last.terminal = false) (t : Nat) (h : t < ep.length) :
    (gaeGeneral g l V ep)[t]? = some (discounted (g * l) (ep.length - t) (fun k => deltaAt g V ep (t + k)) -
      (g * l) ^ (ep.length - t - 1) * (g * V last.next)) := by
  rw [gaeGeneral_get g l V ep t h, gaeLoop_first g l V _ (chained_drop hc t),
    gaeSum_truncated g l V _ last (by rw [List.getLast?_drop, if_neg (by omega)]; exact hl) ht, List.length_drop]
  congr 2
  apply discounted_congr
  intro k _
  simp [deltaAt, List.getElem?_drop]

/-- The branch for `lambda = 1` agrees with the recursion, also for truncated episodes. -/
theorem C47_one_partial (g : R) (V : S → R) (ep : List (Tr R S)) (hc : Chained ep) : gaeOne g V ep = gaeGeneral g 1 V ep := by
  apply List.ext_getElem?
  intro t
  by_cases h : t < ep.length
  · have hd : ep.drop t ≠ [] := by simp; omega
    rw [gaeGeneral_get g 1 V ep t h, gaeLoop_first g 1 V _ (chained_drop hc t), gaeSum_one g V _ (chained_drop hc t) ep[t] (by simp [h])]
    unfold gaeOne
    rw [List.getElem?_zipWith, values_get g _ t (by simpa using h), List.getElem?_eq_getElem h, List.map_drop]
  · have h1 : (gaeOne g V ep).length ≤ t := by simp [gaeOne, values_length]; omega
    have h2 : (gaeGeneral g 1 V ep).length ≤ t := by unfold gaeGeneral; rw [gaeLoop_length]; omega
    rw [List.getElem?_eq_none h1, List.getElem?_eq_none h2]

/-- The branch for `lambda = 0` agrees with the recursion if the last step is terminal. -/
theorem C47_zero_partial (g : R) (V : S → R) (ep : List (Tr R S)) (hc : Chained ep) (he : Ends ep) :
    gaeZero g V ep = gaeGeneral g 0 V ep := by
  apply List.ext_getElem?
  intro t
  by_cases h : t < ep.length
  · rw [gaeGeneral_get g 0 V ep t h, gaeLoop_first g 0 V _ (chained_drop hc t), gaeSum_zero g V _ (ends_drop he t h) ep[t] (by simp [h])]
    unfold gaeZero
    rw [List.getElem?_map, List.getElem?_eq_getElem h]
    rfl
  · have h1 : (gaeZero g V ep).length ≤ t := by simp [gaeZero]; omega
    have h2 : (gaeGeneral g 0 V ep).length ≤ t := by unfold gaeGeneral; rw [gaeLoop_length]; omega
    rw [List.getElem?_eq_none h1, List.getElem?_eq_none h2]

/-- So for complete episodes the three branches are one function. -/
theorem C47_branches_partial [DecidableEq R] (g l : R) (V : S → R) (ep : List (Tr R S)) (hc : Chained ep) (he : Ends ep) :
    gae g l V ep = gaeGeneral g l V ep := by
  unfold gae
  split
  · rename_i h; rw [h, C47_one_partial g V ep hc]
  · split
    · rename_i h; rw [h, C47_zero_partial g V ep hc he]
    · rfl

/-- A terminal step in the middle cuts the recursion: the advantages up to it do not depend on what is stored after it, and those
after it do not depend on what is stored before. -/
theorem C47_cut_partial (g l : R) (V : S → R) (a b : List (Tr R S)) (tr : Tr R S) (ht : tr.terminal = true) :
    gaeGeneral g l V (a ++ tr :: b) = gaeGeneral g l V (a ++ [tr]) ++ gaeGeneral g l V b := by
  have key : ∀ a : List (Tr R S), (gaeLoop g l V (a ++ tr :: b)).1 = (gaeLoop g l V (a ++ [tr])).1 ∧
      (gaeLoop g l V (a ++ tr :: b)).2.1 = (gaeLoop g l V (a ++ [tr])).2.1 ∧
      (gaeLoop g l V (a ++ tr :: b)).2.2 = (gaeLoop g l V (a ++ [tr])).2.2 ++ (gaeLoop g l V b).2.2 := by
    intro a
    induction a with
    | nil => simp [gaeLoop, notTerm, ht]
    | cons x a ih =>
      simp only [List.cons_append, gaeLoop]
      rw [ih.1, ih.2.1, ih.2.2]
      simp
  exact (key a).2.2

/-- For every step that is not terminal and has a step after it: its advantage is its temporal difference, with the value of the next
recorded state, plus `discount * lambda` times the next advantage; whatever the episode. -/
theorem C47_recurrence_partial (g l : R) (V : S → R) (a b : List (Tr R S)) (x y : Tr R S) (hx : x.terminal = false) :
    ∃ ax ay, (gaeGeneral g l V (a ++ x :: y :: b))[a.length]? = some ax ∧
      (gaeGeneral g l V (a ++ x :: y :: b))[a.length + 1]? = some ay ∧
      ax = x.reward + g * V y.state - V x.state + g * l * ay := by
  have key : ∀ a : List (Tr R S), (gaeLoop g l V (a ++ x :: y :: b)).2.2.drop a.length = (gaeLoop g l V (x :: y :: b)).2.2 := by
    intro a
    induction a with
    | nil => rfl
    | cons z a ih =>
      simp only [List.cons_append, gaeLoop, List.length_cons, List.drop_succ_cons]
      simpa [gaeLoop] using ih
  have h0 := congrArg (·[0]?) (key a)
  have h1 := congrArg (·[1]?) (key a)
  simp only [List.getElem?_drop, Nat.add_zero] at h0 h1
  refine ⟨_, _, by unfold gaeGeneral; rw [h0]; simp only [gaeLoop]; rfl, by unfold gaeGeneral; rw [h1]; simp only [gaeLoop]; rfl, ?_⟩
  simp only [hx, notTerm, Bool.false_eq_true, if_false]
  ring

example : gaeGeneral (2 : Int) 3 (fun s : Nat => (s : Int)) ([⟨1, 4, 10, false⟩] ++ ⟨4, 0, 7, true⟩ :: [⟨5, 6, 8, true⟩]) = [35, 3, 3] := by
  decide

example : let ep : List (Tr Int Nat) := [⟨3, 4, 1, false⟩, ⟨4, 7, 2, false⟩, ⟨7, 9, 5, true⟩]
    Chained ep ∧ Ends ep ∧ gaeGeneral 2 3 (fun s : Nat => (s : Int)) ep = [6, 0, -2] ∧
    gaeOne 2 (fun s : Nat => (s : Int)) ep = [22, 8, -2] ∧ gaeZero 2 (fun s : Nat => (s : Int)) ep = [6, 12, -2] := by
  refine ⟨⟨rfl, rfl, rfl, rfl, trivial⟩, by intro tr h; cases h; rfl, ?_⟩
  decide

/-! ### C48: n-step values -/

/-- The value stored with step `t` is the discounted sum of at most `n` rewards from `t` on. -/
theorem C48_nstep (g : R) (n : Nat) (rs : List R) (t : Nat) (h : t < rs.length) :
    (nstep g n rs)[t]? = some (discounted g (min n (rs.length - t)) (fun k => rewardAt rs (t + k))) := by
  rw [nstep_get g n rs t h, horner_eq, List.length_take, List.length_drop]
  congr 1
  apply discounted_congr
  intro k hk
  rw [← rewardAt_drop]
  unfold rewardAt
  rw [List.getElem?_take, if_pos (by omega)]

example : nstep (2 : Int) 2 [1, 10, 100, 1000] = [21, 210, 2100, 1000] := by decide

/-! ### C72: the state the n-step target is bootstrapped from -/

/-- The state `n` steps after step `t` (the final state if the episode ends before), and whether the episode was over. -/
def stateAfter (ep : List (Tr R S)) (t n : Nat) : Option (S × Bool) :=
  (ep[min (t + n) ep.length - 1]?).map (fun tr => (tr.next, tr.terminal))

/-- The n-step target: n rewards, then the value of the state n steps later. -/
def nstepTarget (g : R) (n : Nat) (V : S → R) (ep : List (Tr R S)) (t : Nat) : Option R :=
  (stateAfter ep t n).map (fun sb =>
    discounted g (min n (ep.length - t)) (fun k => rewardAt (ep.map (·.reward)) (t + k)) + g ^ n * notTerm sb.2 * V sb.1)

/-- The whole property: the target of every stored step of a complete episode is the n-step target. -/
def C72_full : Prop :=
  ∀ (g : Int) (n : Nat) (V : Nat → Int) (ep : List (Tr Int Nat)), 1 ≤ n → Chained ep → Ends ep → ∀ t (h : t < ep.length),
    ∀ v, (nstep g n (ep.map (·.reward)))[t]? = some v → some (rainbowTarget g n V v ep[t]) = nstepTarget g n V ep t

/-- False: the stored `next_state` and `terminal` are those of the step itself, so for `n > 1` the value of the wrong state is added,
even behind the end of the episode. -/
theorem C72_violated : ¬ C72_full := by
  intro h
  have := h 1 2 (fun s => s) [⟨0, 5, 1, false⟩, ⟨5, 7, 1, true⟩] (by decide) ⟨rfl, rfl, trivial⟩
    (by intro tr h; cases h; rfl) 0 (by decide) 2 (by decide)
  revert this
  simp only [nstepTarget, stateAfter, discounted]
  decide

/-- It holds for `n = 1`. -/
theorem C72_one_partial (g : R) (V : S → R) (ep : List (Tr R S)) (t : Nat) (h : t < ep.length) (v : R)
    (hv : (nstep g 1 (ep.map (·.reward)))[t]? = some v) : some (rainbowTarget g 1 V v ep[t]) = nstepTarget g 1 V ep t := by
  rw [C48_nstep g 1 _ t (by simpa using h)] at hv
  unfold nstepTarget stateAfter
  have : min (t + 1) ep.length - 1 = t := by omega
  rw [this, List.getElem?_eq_getElem h]
  simp only [Option.map_some, rainbowTarget, List.length_map] at hv ⊢
  cases hv
  rfl

/-- And for every `n` at the last step of a complete episode. -/
theorem C72_last_partial (g : R) (n : Nat) (hn : 1 ≤ n) (V : S → R) (ep : List (Tr R S)) (t : Nat) (h : t + 1 = ep.length) (v : R)
    (hv : (nstep g n (ep.map (·.reward)))[t]? = some v) : some (rainbowTarget g n V v ep[t]) = nstepTarget g n V ep t := by
  rw [C48_nstep g n _ t (by simp; omega)] at hv
  unfold nstepTarget stateAfter
  have : min (t + n) ep.length - 1 = t := by omega
  rw [this, List.getElem?_eq_getElem (by omega)]
  simp only [Option.map_some, rainbowTarget, List.length_map] at hv ⊢
  cases hv
  rfl

example : rainbowTarget (2 : Int) 1 (fun s : Nat => (s : Int)) 3 ⟨0, 5, 3, false⟩ = 13 := by decide

end Machin.Returns
