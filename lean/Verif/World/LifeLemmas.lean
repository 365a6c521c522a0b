import Verif.World.Life
import Mathlib.Data.List.Nodup

/-! # Lemmas on the life of the world -/

namespace Machin.World.Life

open Machin (PyDict)

theorem initDist_world {p q : Proc} {t : Torch} (h : initDist p t = some q) :
    p.group = none ∧ ∃ g, t.dist = some g ∧ q = { p with group := some g } := by
  unfold initDist at h
  split at h
  · rename_i g hg ht
    exact ⟨hg, g, ht, (Option.some.inj h).symm⟩
  · cases h

theorem initRpc_world {p q : Proc} {t : Torch} (h : initRpc p t = some q) :
    p.agent = none ∧ ∃ l, t.rpc = some l ∧ q = { p with agent := some l } := by
  unfold initRpc at h
  split at h
  · rename_i g hg ht
    exact ⟨hg, g, ht, (Option.some.inj h).symm⟩
  · cases h

theorem initWorld_world (p : Proc) (a : Args) (t : Torch) : (initWorld p a t).1.world = p.world := by
  unfold initWorld
  split
  · rfl
  · rename_i p1 h1
    have e1 : p1.world = p.world := by
      split at h1
      · obtain ⟨-, g, -, rfl⟩ := initDist_world h1; rfl
      · cases h1; rfl
    split
    · exact e1
    · rename_i p2 h2
      have e2 : p2.world = p.world := by
        split at h2
        · obtain ⟨-, g, -, rfl⟩ := initRpc_world h2; exact e1
        · cases h2; exact e1
      split
      · exact e2
      · split <;> exact e2

theorem initWorld_group (p : Proc) (a : Args) (t : Torch) (h : p.group ≠ none) : (initWorld p a t).1.group = p.group := by
  unfold initWorld
  split
  · rfl
  · rename_i p1 h1
    have e1 : p1.group = p.group := by
      split at h1
      · exact absurd (initDist_world h1).1 h
      · cases h1; rfl
    split
    · exact e1
    · rename_i p2 h2
      have e2 : p2.group = p.group := by
        split at h2
        · obtain ⟨-, g, -, rfl⟩ := initRpc_world h2; exact e1
        · cases h2; exact e1
      split
      · exact e2
      · split <;> exact e2

/-- A construction in a process without a world. -/
theorem step_construct {p : Proc} (hw : p.world = none) (a : Args) (t : Torch) :
    (∃ q w, initWorld p a t = (q, .ok w) ∧ construct p a t = ({ q with world := some w }, .ok w) ∧ (step p (.construct a t)).1 = { q with world := some w }) ∨
    (∃ q e, initWorld p a t = (q, .error e) ∧ construct p a t = (q, .error e) ∧ (step p (.construct a t)).1 = q) := by
  cases hi : initWorld p a t with
  | mk q r =>
    cases r with
    | ok w =>
      have hc : construct p a t = ({ q with world := some w }, .ok w) := by unfold construct; rw [hw]; simp only [hi]
      exact Or.inl ⟨q, w, rfl, hc, by unfold step; simp only [hc]⟩
    | error e =>
      have hc : construct p a t = (q, .error e) := by unfold construct; rw [hw]; simp only [hi]
      exact Or.inr ⟨q, e, rfl, hc, by unfold step; simp only [hc]⟩

/-- What is looked up in `rank_name_map`: the last info with this id. -/
theorem rankNames_get (infos : List (Nat × String)) (k : Nat) :
    (rankNames infos).get? k = (infos.reverse.find? (fun i => i.1 = k)).map (·.2) := by
  unfold rankNames
  have key : ∀ (l : List (Nat × String)) (d : PyDict Nat String),
      (l.foldl (fun d i => d.set i.1 i.2) d).get? k = ((l.reverse.find? (fun i => i.1 = k)).map (·.2)).or (d.get? k) := by
    intro l
    induction l with
    | nil => intro d; simp
    | cons i l ih =>
      intro d
      rw [List.foldl_cons, ih, List.reverse_cons, List.find?_append, PyDict.get?_set]
      by_cases h : k = i.1
      · cases hf : l.reverse.find? (fun i => i.1 = k) <;> simp [h.symm]
      · cases hf : l.reverse.find? (fun i => i.1 = k) <;> simp [h, Ne.symm h]
  rw [key]
  simp [PyDict.get?]

/-- With distinct ids. -/
theorem rankNames_mem {infos : List (Nat × String)} (hn : (infos.map (·.1)).Nodup) (k : Nat) (s : String) :
    (rankNames infos).get? k = some s ↔ (k, s) ∈ infos := by
  rw [rankNames_get]
  constructor
  · intro h
    obtain ⟨i, hi, rfl⟩ := Option.map_eq_some_iff.1 h
    have h1 := List.find?_some hi
    have h2 := List.mem_of_find?_eq_some hi
    rw [List.mem_reverse] at h2
    have : i.1 = k := by simpa using h1
    rw [← this]
    exact h2
  · intro h
    have hf : (infos.reverse.find? (fun i => i.1 = k)).isSome := by
      rw [List.find?_isSome]
      exact ⟨(k, s), List.mem_reverse.2 h, by simp⟩
    obtain ⟨i, hi⟩ := Option.isSome_iff_exists.1 hf
    rw [hi]
    have h1 : i.1 = k := by simpa using List.find?_some hi
    have h2 := List.mem_reverse.1 (List.mem_of_find?_eq_some hi)
    have : i = (k, s) := by
      refine List.inj_on_of_nodup_map hn h2 h ?_
      exact h1
    rw [this]
    rfl

end Machin.World.Life
