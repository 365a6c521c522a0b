import Verif.Build.LemmasAlgs

/-! # C240: episodes of dictionaries and of transition objects are accepted alike -/

namespace Machin.Build.Algs

variable {ν : Type}

/-- **C240**: `store_episode` of every algorithm accepts every complete, non-empty episode, whether its items are dictionaries or transition
objects. -/
def C240_full : Prop := ∀ (alg : Alg) (val : Nat → String → Nat) (items : List (Item Nat)), items ≠ [] → Spec.Complete items →
  (prepare alg val items).2 = .ok ()

/-- A complete item. -/
def sample (isObj : Bool) : Item Nat := ⟨isObj, [("state", 1), ("action", 2), ("next_state", 3), ("reward", 4), ("terminal", 0)]⟩

/-- A2C refuses an episode of one transition object: `value` is a new attribute. -/
theorem C240_violated : ¬ C240_full := by
  intro h
  have := h (.a2c .one) (fun _ _ => 0) [sample true] (by simp) (by unfold Spec.Complete; decide)
  revert this
  decide +kernel

/-- An object in the middle of dictionaries: A2C raises after having extended the dictionaries behind it but not the one before. -/
theorem C240_violated_half : prepare (.a2c .other) (fun i _ => 10 + i) [sample false, sample true, sample false] =
    ([sample false, sample true, { sample false with attrs := (sample false).attrs ++ [("value", 12)] }], .error .runtime) := by
  decide +kernel

/-- RAINBOW, IMPALA and GAIL refuse the object as well, GAIL after having replaced its reward. -/
theorem C240_violated_others : (prepare (.rainbow 3) (fun _ _ => 0) [sample true]).2 = .error .runtime ∧
    (prepare .impala (fun _ _ => 0) [sample true]).2 = .error .runtime ∧
    prepare (.gail .one) (fun _ _ => 7) [sample true] =
      ([⟨true, [("state", 1), ("action", 2), ("next_state", 3), ("reward", 7), ("terminal", 0)]⟩], .error .runtime) := by
  decide +kernel

/-- Exactly when it succeeds: every transition object must already have the attributes the algorithm computes. Then every item is extended by
them and is otherwise as before, and of the same kind; if not, `RuntimeError` is raised. -/
theorem C240_exact_partial (alg : Alg) (val : Nat → String → ν) (items : List (Item ν)) (hne : items ≠ []) (hc : Spec.Complete items) :
    (prepare alg val items).1.length = items.length ∧
    (((∀ x ∈ items, x.isObj = true → ∀ k ∈ Spec.computed alg, k ∈ x.attrs.keys) ∧ (prepare alg val items).2 = .ok () ∧
        ∀ i y, items[i]? = some y → ∃ z, (prepare alg val items).1[i]? = some z ∧ Spec.Extended (Spec.computed alg) (val i) y z) ∨
      ((∃ x ∈ items, x.isObj = true ∧ ∃ k ∈ Spec.computed alg, k ∉ x.attrs.keys) ∧ (prepare alg val items).2 = .error .runtime)) := by
  have hn : 0 < items.length := List.length_pos_iff.2 hne
  have hp : prepare alg val items = run val (alg.ops items.length) items := by
    unfold prepare
    rw [if_neg (by omega)]
  rw [hp]
  obtain ⟨h1, h2⟩ := run_safe val (alg.ops items.length) items [] (alg.safe hn) hc (by simp)
  refine ⟨h1, ?_⟩
  rcases h2 with ⟨e1, e2, e3⟩ | ⟨e1, ⟨i, k⟩, hx, y, hy, ho, hk⟩
  · refine .inl ⟨?_, e1, ?_⟩
    · intro x hx ho k hk
      obtain ⟨i, hi, rfl⟩ := List.getElem_of_mem hx
      refine Decidable.byContradiction fun hn' => ?_
      exact e2 (i, k) ((Alg.writes_iff hn alg _).2 ⟨hi, hk⟩) ⟨items[i], List.getElem?_eq_getElem hi, ho, hn'⟩
    · intro i y hy
      obtain ⟨z, z1, z2, z3⟩ := e3 i y hy
      have hi : i < items.length := (List.getElem?_eq_some_iff.1 hy).1
      refine ⟨z, z1, z2, fun k => ?_⟩
      rw [z3 k]
      by_cases hk : k ∈ Spec.computed alg
      · rw [if_pos ((Alg.writes_iff hn alg _).2 ⟨hi, hk⟩), if_pos hk]
      · rw [if_neg (fun hm => hk ((Alg.writes_iff hn alg _).1 hm).2), if_neg hk]
  · exact .inr ⟨⟨y, List.mem_of_getElem? hy, ho, k, ((Alg.writes_iff hn alg _).1 hx).2, hk⟩, e1⟩

example : (∀ x ∈ [sample false, sample false], x.isObj = true → ∀ k ∈ Spec.computed (.a2c .zero), k ∈ x.attrs.keys) ∧
    Spec.Complete [sample false, sample false] := by unfold Spec.Complete; decide

/-- Dictionaries are accepted by every algorithm, and DQN, DDPG and SAC accept objects too. -/
theorem C240_dicts_partial (alg : Alg) (val : Nat → String → ν) (items : List (Item ν)) (hne : items ≠ []) (hc : Spec.Complete items)
    (hd : alg = .plain ∨ ∀ x ∈ items, x.isObj = false) : (prepare alg val items).2 = .ok () := by
  rcases (C240_exact_partial alg val items hne hc).2 with ⟨_, h, _⟩ | ⟨⟨x, hx, ho, k, hk, _⟩, _⟩
  · exact h
  · rcases hd with rfl | hd
    · simp [Spec.computed] at hk
    · rw [hd x hx] at ho
      cases ho

example : Spec.Complete [sample false, sample true] ∧ [sample false, sample true] ≠ [] := by unfold Spec.Complete; decide

/-- An episode that went through once can be stored again, although its items are transition objects by then, and it gets the same
attributes; this also holds for another algorithm that computes nothing more. -/
theorem C240_again_partial (alg alg' : Alg) (val val' : Nat → String → ν) (items : List (Item ν)) (hne : items ≠ [])
    (hc : Spec.Complete items) (hok : (prepare alg val items).2 = .ok ()) (hsub : ∀ k ∈ Spec.computed alg', k ∈ Spec.computed alg) :
    (prepare alg' val' (handedOver (prepare alg val items).1)).2 = .ok () ∧
    ∀ i y, items[i]? = some y → ∃ z, (prepare alg' val' (handedOver (prepare alg val items).1)).1[i]? = some z ∧ z.isObj = true ∧
      ∀ k, z.attrs.get? k = if k ∈ Spec.computed alg' then some (val' i k) else if k ∈ Spec.computed alg then some (val i k)
        else y.attrs.get? k := by
  obtain ⟨hl, h⟩ := C240_exact_partial alg val items hne hc
  rcases h with ⟨_, _, hx⟩ | ⟨_, he⟩
  · have hkeys : ∀ x ∈ handedOver (prepare alg val items).1, ∀ k, (k ∈ Spec.computed alg ∨ k ∈ Spec.base) → k ∈ x.attrs.keys := by
      intro x hxm k hk
      obtain ⟨z, hz, rfl⟩ := List.mem_map.1 hxm
      obtain ⟨i, hi, rfl⟩ := List.getElem_of_mem hz
      have hi' : i < items.length := by omega
      obtain ⟨z, z1, _, z3⟩ := hx i _ (List.getElem?_eq_getElem hi')
      rw [List.getElem?_eq_getElem hi] at z1
      cases z1
      rw [← PyDict.get?_isSome_iff]
      simp only
      rw [z3 k]
      by_cases hkc : k ∈ Spec.computed alg
      · rw [if_pos hkc]
        rfl
      · rw [if_neg hkc, PyDict.get?_isSome_iff]
        rcases hk with hk | hk
        · exact absurd hk hkc
        · exact hc _ (List.getElem_mem hi') k hk
    have hne' : handedOver (prepare alg val items).1 ≠ [] := by
      intro e
      have := congrArg List.length e
      simp only [handedOver, List.length_map, hl, List.length_nil] at this
      exact hne (List.length_eq_zero_iff.1 this)
    rcases (C240_exact_partial alg' val' _ hne' fun x hx k hk => hkeys x hx k (.inr hk)).2 with
      ⟨_, h2, h3⟩ | ⟨⟨x, hx, _, k, hk, hn⟩, _⟩
    · refine ⟨h2, fun i y hy => ?_⟩
      obtain ⟨z, z1, z2, z3⟩ := hx i y hy
      obtain ⟨u, u1, u2, u3⟩ := h3 i { z with isObj := true } (by simp [handedOver, z1])
      refine ⟨u, u1, u2, fun k => ?_⟩
      rw [u3 k]
      split
      · rfl
      · exact z3 k
    · exact absurd (hkeys x hx k (.inl (hsub k hk))) hn
  · rw [he] at hok
    cases hok

example : (prepare (.gail .one) (fun _ _ => 7) [sample false, sample false]).2 = .ok () ∧
    ∀ k ∈ Spec.computed (.rainbow 2), k ∈ Spec.computed (.gail .one) := by decide +kernel

/-- An empty episode is refused by every algorithm; by those that compute values with `IndexError` instead of `ValueError`. -/
theorem C240_empty_partial (alg : Alg) (val : Nat → String → ν) : prepare alg val [] =
    ([], .error (if "value" ∈ Spec.computed alg then .index else .value)) := by
  cases alg <;> rfl

/-- A dictionary without a reward: the dictionaries behind it have been extended when A2C raises `KeyError`. -/
theorem C240_violated_missing : prepare (.a2c .one) (fun i _ => 10 + i) [⟨false, [("state", 1)]⟩, sample false] =
    ([⟨false, [("state", 1)]⟩, { sample false with attrs := (sample false).attrs ++ [("value", 11)] }], .error .key) := by
  decide +kernel

end Machin.Build.Algs
