import Verif.Pool.Workers
import Verif.Pool.RouteLemmas
import Mathlib.Data.List.InsertIdx

/-! # Lemmas about callbacks and workers -/

namespace Machin.Pool

open Spec

variable {β ε : Type}

/-! ### Callbacks of map results -/

/-- The callbacks a complete map handle has made. -/
def mapCalls (r : MapRes β ε) : List (Call β ε) :=
  match r.value with
  | .ok v => if r.hasCallback then [.callback v] else []
  | .error e => if r.hasErrorCallback then [.errorCallback e] else []

theorem map_set_flags (r : MapRes β ε) (c : Nat) (o : Obj β ε) :
    (r.set c o).hasCallback = r.hasCallback ∧ (r.set c o).hasErrorCallback = r.hasErrorCallback := by
  unfold MapRes.set
  dsimp only
  split
  · split <;> exact ⟨rfl, rfl⟩
  · split <;> exact ⟨rfl, rfl⟩

theorem map_set_calls (r : MapRes β ε) (c : Nat) (o : Obj β ε) :
    (r.left - 1 = 0 → (r.set c o).ready = true ∧ (r.set c o).calls = r.calls ++ mapCalls (r.set c o)) ∧
    (r.left - 1 ≠ 0 → (r.set c o).ready = r.ready ∧ (r.set c o).calls = r.calls) := by
  constructor
  · intro h
    unfold MapRes.set mapCalls
    rcases o with e | l <;> rcases hv : r.value with e' | v <;> simp [h]
  · intro h
    unfold MapRes.set
    rcases o with e | l <;> rcases hv : r.value with e' | v <;> simp [h]

/-! ### Workers -/

theorem exitWorker_ids (ws : List Worker) (k : Nat) : (exitWorker ws k).map (·.id) = ws.map (·.id) := by
  unfold exitWorker
  apply List.ext_getElem
  · simp
  · intro i h1 h2
    simp only [List.getElem_map, List.getElem_modify]
    split <;> rfl

theorem reap_ids_sublist (ws : List Worker) : ((reap ws).map (·.id)).Sublist (ws.map (·.id)) :=
  List.Sublist.map _ List.filter_sublist

theorem reap_live (ws : List Worker) : ∀ w ∈ reap ws, w.exited = false := by
  intro w hw
  have := (List.mem_filter.mp hw).2
  simpa using this

theorem zip_range_ids (k : Nat) (l : List Nat) (h : l.length ≤ k) :
    (((List.range k).zip l).map (fun p => (⟨p.2, false⟩ : Worker))).map (·.id) = l := by
  rw [List.map_map]
  have : ((fun w : Worker => w.id) ∘ fun p : Nat × Nat => (⟨p.2, false⟩ : Worker)) = Prod.snd := by
    funext p; rfl
  rw [this, List.map_snd_zip]
  simpa using h

/-- Different numbers below `n`, live or not. -/
def IdsOk (n : Nat) (ws : List Worker) : Prop := (ws.map (·.id)).Nodup ∧ ∀ i ∈ ws.map (·.id), i < n

theorem IdsOk.exit {n : Nat} {ws : List Worker} (h : IdsOk n ws) (k : Nat) : IdsOk n (exitWorker ws k) := by
  unfold IdsOk
  rw [exitWorker_ids]
  exact h

theorem IdsOk.reap {n : Nat} {ws : List Worker} (h : IdsOk n ws) : IdsOk n (reap ws) :=
  ⟨h.1.sublist (reap_ids_sublist ws), fun i hi => h.2 i ((reap_ids_sublist ws).subset hi)⟩

theorem need_length (n : Nat) (ids : List Nat) (hnd : ids.Nodup) (hb : ∀ i ∈ ids, i < n) :
    ((List.range n).filter (fun i => i ∉ ids)).length = n - ids.length := by
  have hp : ((List.range n).filter (fun i => i ∈ ids)).Perm ids := by
    refine (List.perm_ext_iff_of_nodup (List.nodup_range.filter _) hnd).mpr (fun i => ?_)
    simp only [List.mem_filter, List.mem_range, decide_eq_true_eq]
    exact ⟨fun q => q.2, fun q => ⟨hb i q, q⟩⟩
  have hl := hp.length_eq
  have htot := List.length_eq_length_filter_add (l := List.range n) (fun i => decide (i ∈ ids))
  rw [List.length_range, hl] at htot
  have e : (List.range n).filter (fun i => i ∉ ids) = (List.range n).filter (fun i => !decide (i ∈ ids)) := by
    apply List.filter_congr
    intro i _
    simp
  rw [e]
  omega

theorem repopulateIds_spec (order : List Nat → List Nat) (ho : ∀ l, (order l).Perm l) (n : Nat) (ws : List Worker)
    (h : IdsOk n ws) : ((repopulateIds order n ws).map (·.id)).Perm (List.range n) := by
  unfold repopulateIds
  have hl := need_length n (ws.map (·.id)) h.1 h.2
  rw [List.length_map] at hl
  have hperm := ho ((List.range n).filter (fun i => i ∉ ws.map (·.id)))
  dsimp only
  rw [List.map_append, zip_range_ids _ _ (by rw [hperm.length_eq, hl])]
  have h1 : (ws.map (·.id) ++ order ((List.range n).filter (fun i => i ∉ ws.map (·.id)))).Perm
      (ws.map (·.id) ++ (List.range n).filter (fun i => i ∉ ws.map (·.id))) := List.Perm.append_left _ hperm
  refine h1.trans ?_
  refine (List.perm_ext_iff_of_nodup ?_ ?_).mpr (fun i => ?_)
  · rw [List.nodup_append]
    refine ⟨h.1, List.nodup_range.filter _, ?_⟩
    intro a ha b hb e
    rw [List.mem_filter] at hb
    have := hb.2
    rw [← e] at this
    simp [ha] at this
  · exact List.nodup_range
  · simp only [List.mem_append, List.mem_filter, List.mem_range, decide_eq_true_eq]
    constructor
    · rintro (q | q)
      · exact h.2 i q
      · exact q.1
    · intro q
      by_cases hi : i ∈ ws.map (·.id)
      · exact Or.inl hi
      · exact Or.inr ⟨q, hi⟩

theorem repopulateIds_live (order : List Nat → List Nat) (n : Nat) (ws : List Worker)
    (h : ∀ w ∈ ws, w.exited = false) : ∀ w ∈ repopulateIds order n ws, w.exited = false := by
  intro w hw
  unfold repopulateIds at hw
  rcases List.mem_append.mp hw with q | q
  · exact h w q
  · rcases List.mem_map.mp q with ⟨p, _, hp⟩
    rw [← hp]

theorem idsOk_run (order : List Nat → List Nat) (ho : ∀ l, (order l).Perm l) (n : Nat) (evs : List WEv) :
    IdsOk n (wRun (repopulateIds order n) evs) := by
  have perm_ok : ∀ ws : List Worker, (ws.map (·.id)).Perm (List.range n) → IdsOk n ws := by
    intro ws h
    exact ⟨h.nodup_iff.mpr List.nodup_range, fun i hi => List.mem_range.mp (h.mem_iff.mp hi)⟩
  induction evs using List.reverseRecOn with
  | nil => exact perm_ok _ (repopulateIds_spec order ho n [] ⟨by simp, by simp⟩)
  | append_singleton evs e ih =>
    unfold wRun at ih ⊢
    rw [List.foldl_append]
    cases e with
    | exit k => exact ih.exit k
    | maintain => exact perm_ok _ (repopulateIds_spec order ho n _ ih.reap)

end Machin.Pool
