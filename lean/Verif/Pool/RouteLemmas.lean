import Verif.Pool.IMapLemmas

/-! # Lemmas about the routing of results to jobs -/

namespace Machin.Pool

open Spec

variable {β ε : Type}

theorem run_append (evs : List (Event β ε)) (e : Event β ε) : Pool.run (evs ++ [e]) = (Pool.run evs).step e := by
  simp [Pool.run]

theorem submits_append (a b : List (Event β ε)) : submits (a ++ b) = submits a ++ submits b := by
  induction a with
  | nil => rfl
  | cons e a ih => cases e <;> simp [submits, ih]

theorem deliveries_append (job : Nat) (a b : List (Event β ε)) :
    deliveries job (a ++ b) = deliveries job a ++ deliveries job b := by
  induction a with
  | nil => rfl
  | cons e a ih =>
    cases e with
    | submit s => simp [deliveries, ih]
    | deliver j c o =>
      simp only [List.cons_append, deliveries, ih]
      by_cases h : j = job <;> simp [h]

theorem receive_false (h : Handle β ε) (ds : List (Nat × Obj β ε)) : receive (h, false) ds = (h, false) := by
  cases ds <;> simp [receive]

theorem receive_append (h : Handle β ε × Bool) (ds es : List (Nat × Obj β ε)) :
    receive h (ds ++ es) = receive (receive h ds) es := by
  induction ds generalizing h with
  | nil => rfl
  | cons d ds ih =>
    rcases h with ⟨h, b⟩
    cases b with
    | false => simp [receive_false]
    | true => simp only [List.cons_append, receive, if_true]; exact ih _

theorem counter_run (evs : List (Event β ε)) : (Pool.run evs).counter = (submits evs).length := by
  induction evs using List.reverseRecOn with
  | nil => rfl
  | append_singleton evs e ih =>
    rw [run_append, submits_append]
    cases e with
    | submit s =>
      simp only [Pool.step, Pool.submit, Pool.register, submits, List.length_append, List.length_cons, List.length_nil,
        ← ih]
      split <;> rfl
    | deliver j c o =>
      simp only [Pool.step, Pool.deliver, submits, List.append_nil, ← ih]
      split
      · rfl
      · split <;> rfl

/-- Jobs that were not submitted are unknown. -/
theorem unknown_run (evs : List (Event β ε)) (job : Nat) (hj : (submits evs).length ≤ job) :
    (Pool.run evs).cache.get? job = none ∧ (Pool.run evs).done.get? job = none := by
  induction evs using List.reverseRecOn with
  | nil => exact ⟨rfl, rfl⟩
  | append_singleton evs e ih =>
    rw [submits_append] at hj
    have hle : (submits evs).length ≤ job := by
      rw [List.length_append] at hj; omega
    have ih := ih hle
    have hc := counter_run evs
    rw [run_append]
    cases e with
    | submit s =>
      have hne : job ≠ (Pool.run evs).counter := by
        rw [hc]; simp [submits] at hj; omega
      simp only [Pool.step, Pool.submit, Pool.register]
      split
      · simp only [PyDict.get?_set, hne, if_false]; exact ih
      · simp only [PyDict.get?_set, hne, if_false]; exact ih
    | deliver j c o =>
      simp only [Pool.step, Pool.deliver]
      cases hg : (Pool.run evs).cache.get? j with
      | none => exact ih
      | some h =>
        have hne : job ≠ j := by
          intro hx
          rw [← hx, ih.1] at hg
          cases hg
        dsimp only
        split
        · simp only [PyDict.get?_erase, PyDict.get?_set, hne, if_false]; exact ih
        · simp only [PyDict.get?_set, hne, if_false]; exact ih

/-- The handle of a job is what its own deliveries make of it. -/
theorem route (pre : List (Event β ε)) (s : Submit) (post : List (Event β ε)) :
    ((Pool.run (pre ++ .submit s :: post)).cache.get? (submits pre).length,
      (Pool.run (pre ++ .submit s :: post)).done.get? (submits pre).length) =
    if (receive s.handle (deliveries (submits pre).length post)).2 then
      (some (receive s.handle (deliveries (submits pre).length post)).1, none)
    else (none, some (receive s.handle (deliveries (submits pre).length post)).1) := by
  induction post using List.reverseRecOn with
  | nil =>
    have hu := unknown_run pre (submits pre).length (Nat.le_refl _)
    have hc := counter_run pre
    rw [run_append]
    simp only [Pool.step, Pool.submit, Pool.register, deliveries, receive, hc]
    split
    · simp only [PyDict.get?_set, if_true, hu.2]
    · simp only [PyDict.get?_set, if_true, hu.1]
  | append_singleton post e ih =>
    rw [show pre ++ Event.submit s :: (post ++ [e]) = (pre ++ Event.submit s :: post) ++ [e] by simp, run_append,
      deliveries_append, receive_append]
    have hc := counter_run (pre ++ Event.submit s :: post)
    generalize Pool.run (pre ++ Event.submit s :: post) = p at *
    generalize receive s.handle (deliveries (submits pre).length post) = r at *
    rw [Prod.mk.injEq] at ih
    cases e with
    | submit s' =>
      have hne : (submits pre).length ≠ p.counter := by
        rw [hc, submits_append]; simp [submits]
      simp only [Pool.step, Pool.submit, Pool.register, deliveries, receive]
      split
      · simp only [PyDict.get?_set, hne, if_false]
        exact Prod.ext ih.1 ih.2
      · simp only [PyDict.get?_set, hne, if_false]
        exact Prod.ext ih.1 ih.2
    | deliver j c o =>
      by_cases hj : j = (submits pre).length
      · subst hj
        rcases r with ⟨h, b⟩
        cases b with
        | false =>
          simp only [Bool.false_eq_true, if_false, Prod.mk.injEq] at ih
          rw [receive_false]
          simp only [Pool.step, Pool.deliver, ih.1, Bool.false_eq_true, if_false, ih.2]
        | true =>
          simp only [if_true, Prod.mk.injEq] at ih
          simp only [Pool.step, Pool.deliver, ih.1, deliveries, if_true, receive]
          by_cases hf : (h.set c o).2
          · simp [hf, PyDict.get?_erase, PyDict.get?_set]
          · simp [hf, PyDict.get?_set, ih.2]
      · have hne : (submits pre).length ≠ j := fun q => hj q.symm
        simp only [deliveries, if_neg hj, receive]
        rw [← show (p.cache.get? (submits pre).length, p.done.get? (submits pre).length) = _ from Prod.ext ih.1 ih.2]
        simp only [Pool.step, Pool.deliver]
        cases hg : p.cache.get? j with
        | none => rfl
        | some h =>
          dsimp only
          split
          · simp only [PyDict.get?_erase, PyDict.get?_set, hne, if_false]
          · simp only [PyDict.get?_set, hne, if_false]

/-! ### Completion of a handle -/

theorem map_set_left (r : MapRes β ε) (c : Nat) (o : Obj β ε) : (r.set c o).left = r.left - 1 := by
  unfold MapRes.set
  dsimp only
  split
  · split <;> rfl
  · split <;> rfl

theorem receive_map (r : MapRes β ε) (ds : List (Nat × Obj β ε)) (k : Nat) (hk : r.left = k) (h : ds.length ≤ k)
    (hk1 : 1 ≤ k) : (receive (.map r, true) ds).2 = decide (ds.length < k) := by
  induction ds generalizing r k with
  | nil => simp [receive]; omega
  | cons d ds ih =>
    simp only [receive, if_true, Handle.set]
    have hl := map_set_left r d.1 d.2
    rw [List.length_cons] at h
    by_cases h1 : k = 1
    · have hz : (r.set d.1 d.2).left = 0 := by rw [hl, hk, h1]; rfl
      rw [decide_eq_true hz]
      have : ds = [] := List.length_eq_zero_iff.mp (by omega)
      subst this
      simp [receive, h1]
    · have hz : ¬ (r.set d.1 d.2).left = 0 := by rw [hl, hk]; omega
      rw [decide_eq_false hz, Bool.not_false, ih _ (k - 1) (by rw [hl, hk]; omega) (by omega) (by omega)]
      simp only [List.length_cons]
      congr 1
      apply propext
      omega

theorem receive_imapU (it : IMap β ε) (ds : List (Nat × Obj β ε)) (h : it.index + ds.length ≤ it.length)
    (h1 : it.index < it.length) :
    (receive (.imapUnordered it, true) ds).2 = decide (it.index + ds.length < it.length) := by
  induction ds generalizing it with
  | nil => simp [receive]; omega
  | cons d ds ih =>
    simp only [receive, if_true, Handle.set]
    rw [List.length_cons] at h
    by_cases hx : (it.setUnordered d.1 d.2).1.index = it.length
    · rw [decide_eq_true hx]
      simp only [IMap.setUnordered] at hx
      have : ds = [] := List.length_eq_zero_iff.mp (by omega)
      subst this
      simp [receive, hx]
    · rw [decide_eq_false hx, Bool.not_false]
      simp only [IMap.setUnordered] at hx
      rw [ih _ (by simp only [IMap.setUnordered]; omega) (by simp only [IMap.setUnordered]; omega)]
      simp only [List.length_cons, IMap.setUnordered]
      congr 1
      apply propext
      omega

theorem IInv.index_eq_iff {out : Nat → Obj β ε} {n : Nat} {D : List Nat} {it : IMap β ε} {ys : List (Obj β ε)}
    (h : IInv out n D it ys) (hgap : it.index ∉ D) (hnd : D.Nodup) (hb : ∀ i ∈ D, i < n) :
    it.index = n ↔ D.length = n := by
  constructor
  · intro hi
    apply Nat.le_antisymm (nodup_lt_length hnd n hb)
    have hs : List.range n ⊆ D := fun i hm => h.below i (by rw [hi]; exact List.mem_range.mp hm)
    have := (List.subperm_of_subset List.nodup_range hs).length_le
    simpa using this
  · intro hl
    have hp := perm_range_of_length hnd n hb hl
    have h1 : ¬ it.index < n := fun q => hgap (hp.mem_iff.mpr (List.mem_range.mpr q))
    rcases Nat.lt_or_ge n it.index with h2 | h2
    · have := hb n (h.below n h2)
      omega
    · omega

theorem receive_imap (out : Nat → Obj β ε) (n : Nat) (D : List Nat) (it : IMap β ε) (ys : List (Obj β ε))
    (h : IInv out n D it ys) (hgap : it.index ∉ D) (ds : List (Nat × Obj β ε)) (hout : ∀ d ∈ ds, d.2 = out d.1)
    (hnd : (D ++ ds.map (·.1)).Nodup) (hb : ∀ i ∈ D ++ ds.map (·.1), i < n) (hlt : D.length < n) :
    (receive (.imap it, true) ds).2 = decide (D.length + ds.length < n) := by
  induction ds generalizing D it with
  | nil => simp [receive]; omega
  | cons d ds ih =>
    have hsplit : D ++ (d :: ds).map (·.1) = (D ++ [d.1]) ++ ds.map (·.1) := by simp
    have hnd' : ((D ++ [d.1]) ++ ds.map (·.1)).Nodup := by rw [← hsplit]; exact hnd
    have hb' : ∀ i ∈ (D ++ [d.1]) ++ ds.map (·.1), i < n := by rw [← hsplit]; exact hb
    have hD := (List.nodup_append.mp hnd').1
    have hd : d.1 ∉ D := by
      intro hm
      exact (List.nodup_append.mp hD).2.2 d.1 hm d.1 (by simp) rfl
    have key := IInv.set out n D ys it h hgap d.1 hd
    rw [← hout d (by simp)] at key
    have hiff := key.1.index_eq_iff key.2.1 hD (fun i hi => hb' i (List.mem_append_left _ hi))
    have hle := nodup_lt_length hnd' n hb'
    simp only [List.length_append, List.length_singleton, List.length_map] at hle hiff
    simp only [receive, if_true, Handle.set, h.len]
    by_cases hx : (it.set d.1 d.2).1.index = n
    · rw [decide_eq_true hx, Bool.not_true]
      have : ds = [] := List.length_eq_zero_iff.mp (by have := hiff.mp hx; omega)
      subst this
      have := hiff.mp hx
      simp [receive]
      omega
    · rw [decide_eq_false hx, Bool.not_false, ih (D ++ [d.1]) _ key.1 key.2.1 (fun e he => hout e (by simp [he])) hnd' hb'
        (by
          simp only [List.length_append, List.length_singleton]
          have : D.length + 1 ≠ n := fun q => hx (hiff.mpr q)
          omega)]
      simp only [List.length_cons, List.length_append, List.length_nil]
      congr 1
      apply propext
      omega

/-- Results of different tasks of a job: the handle is complete exactly when all tasks have been delivered. -/
theorem receive_complete (s : Submit) (hs : 1 ≤ s.tasks) (ds : List (Nat × Obj β ε)) (hnd : (ds.map (·.1)).Nodup)
    (hb : ∀ i ∈ ds.map (·.1), i < s.tasks) : (receive s.handle ds).2 = decide (ds.length < s.tasks) := by
  have hle := nodup_lt_length hnd _ hb
  rw [List.length_map] at hle
  cases s with
  | apply cb ecb =>
    simp only [Submit.tasks] at hle
    match ds, hle with
    | [], _ => rfl
    | [d], _ => simp [receive, Submit.handle, Handle.set, Submit.tasks]
    | _ :: _ :: _, h => simp at h
  | map n c cb ecb =>
    have hc : 1 ≤ c := by
      rcases Nat.eq_zero_or_pos c with h | h
      · subst h; simp [Submit.tasks, splitTasks_zero] at hs
      · exact h
    have ht : (Submit.map n c cb ecb).tasks = numChunks n c := by
      simp [Submit.tasks, splitTasks_length c hc]
    rw [ht] at hle hs ⊢
    have h0 : (Submit.map n c cb ecb).handle (β := β) (ε := ε) = (.map (MapRes.new c n cb ecb), true) := by
      simp only [Submit.handle, decide_eq_true (show c ≠ 0 by omega)]
    rw [h0]
    apply receive_map _ _ _ _ hle hs
    unfold MapRes.new
    rw [if_neg (by omega), numChunks_eq n c hc]
  | imap n =>
    simp only [Submit.tasks] at hs hb
    have hwf : PyDict.WF (κ := Nat) ds := hnd
    have h := receive_imap (fun i => (PyDict.get? ds i).getD (.ok [])) n [] (IMap.new n) []
      (iInv_run (fun i => (PyDict.get? ds i).getD (.ok [])) n [] (by simp [delivered])).1 (by simp) ds
      (by
        intro d hd
        rw [PyDict.get?_of_mem hwf (show (d.1, d.2) ∈ ds from hd)]
        rfl)
      (by simpa using hnd) (by simpa using hb) (by simp only [List.length_nil]; omega)
    rw [Bool.eq_iff_iff] at h
    refine Bool.eq_iff_iff.mpr (Iff.trans ?_ decide_eq_true_iff.symm)
    simpa [Submit.handle, Submit.tasks] using h
  | imapUnordered n =>
    simp only [Submit.tasks] at hs hle
    have h := receive_imapU (β := β) (ε := ε) (IMap.new n) ds (by simpa [IMap.new] using hle) (by simp only [IMap.new]; omega)
    rw [Bool.eq_iff_iff] at h
    refine Bool.eq_iff_iff.mpr (Iff.trans ?_ decide_eq_true_iff.symm)
    simpa [Submit.handle, Submit.tasks, IMap.new] using h

theorem exists_split (evs : List (Event β ε)) (job : Nat) (h : job < (submits evs).length) :
    ∃ pre s post, evs = pre ++ .submit s :: post ∧ (submits pre).length = job := by
  induction evs generalizing job with
  | nil => simp [submits] at h
  | cons e evs ih =>
    cases e with
    | submit s =>
      cases job with
      | zero => exact ⟨[], s, evs, rfl, rfl⟩
      | succ job =>
        rcases ih job (by simpa [submits] using h) with ⟨pre, s', post, hp, hl⟩
        exact ⟨.submit s :: pre, s', post, by rw [hp]; rfl, by simp [submits, hl]⟩
    | deliver j c o =>
      rcases ih job (by simpa [submits] using h) with ⟨pre, s', post, hp, hl⟩
      exact ⟨.deliver j c o :: pre, s', post, by rw [hp]; rfl, by simp [submits, hl]⟩

theorem cache_nil_of_get? (d : PyDict Nat (Handle β ε)) (h : ∀ k, d.get? k = none) : d = [] := by
  cases d with
  | nil => rfl
  | cons p d =>
    have := h p.1
    rw [PyDict.get?_cons, if_pos rfl] at this
    cases this

end Machin.Pool
