import Verif.Pool.CallbacksLemmas

/-! # Properties: callbacks that raise (C251) -/

namespace Machin.Pool

open Spec

variable {β ε : Type}

/-- C251 in full: whatever the callbacks do, once every task has its result every job is answered. -/
def C251_full : Prop :=
  ∀ (cb : Nat → Outcome Nat Nat) (evs : List (CEvent Nat Nat)), Complete evs →
    ∀ (j : Nat) (s : Submit), (asked evs)[j]? = some s → ∃ h, (Served.run cb evs).pool.handle? j = some h ∧ answered h = true

/-- Two jobs, the first with a callback, the second without; both succeed. -/
def twoJobs : List (CEvent Nat Nat) := [.submit (.apply true false), .submit (.apply false false), .deliver 0 0 (.ok [1]), .deliver 1 0 (.ok [2])]

theorem twoJobs_complete : Complete twoJobs := by
  intro j s hs
  match j with
  | 0 =>
    simp only [twoJobs, asked, List.getElem?_cons_zero, Option.some.injEq] at hs
    subst hs
    decide
  | 1 =>
    simp only [twoJobs, asked, List.getElem?_cons_succ, List.getElem?_cons_zero, Option.some.injEq] at hs
    subst hs
    decide
  | j + 2 => simp [twoJobs, asked] at hs

/-- C251 is violated: the callback of the first job divides by zero, which ends the thread that hands out the results. -/
theorem C251_violated : ¬ C251_full := by
  intro h
  obtain ⟨r, h1, h2⟩ := h (fun _ _ => some .zeroDiv) twoJobs twoJobs_complete 1 (.apply false false) rfl
  simp [twoJobs, Served.run, Served.step, Pool.submit, Pool.register, Submit.handle, Pool.deliverC, PyDict.get?, PyDict.set, PyDict.mem, Handle.setC,
    AsyncRes.setC, AsyncRes.new, Pool.handle?] at h1
  subst h1
  simp [answered] at h2

/-- The second job has no callback; its result is ignored, and the pool cannot be closed. -/
theorem C251_violated_other :
    let s := Served.run (fun _ _ => some .zeroDiv) twoJobs
    s.alive = false ∧ s.pool.handle? 1 = some (.async (AsyncRes.new false false)) ∧ s.pool.canFinish = false := by
  refine ⟨by decide, by decide, by decide⟩

/-- A `KeyError` of a callback is taken for a job that is not in the cache: the thread lives and the other job is answered, but `get()` of the job itself waits for ever
and the pool cannot be closed. -/
theorem C251_violated_key :
    let s := Served.run (fun _ _ => some .key) twoJobs
    s.alive = true ∧ (s.pool.handle? 0).map answered = some false ∧ (s.pool.handle? 1).map answered = some true ∧ s.pool.canFinish = false := by
  refine ⟨by decide, by decide, by decide, by decide⟩

/-- The relation of a job whose callbacks return with the pool in which all callbacks return. -/
theorem same_view {cb : Nat → Outcome β ε} {j : Nat} (hq : ∀ c, cb j c = none) (evs : List (CEvent β ε)) (ha : (Served.run cb evs).alive = true) :
    view (Served.run cb evs).pool j = view (Pool.run (evs.map plain)) j := by
  induction evs using List.reverseRecOn with
  | nil => rfl
  | append_singleton evs ev ih =>
    rw [run_snoc] at ha ⊢
    have ha' := alive_snoc ha
    have ih := ih ha'
    have hp : Pool.run ((evs ++ [ev]).map plain) = (Pool.run (evs.map plain)).step (plain ev) := by simp [Pool.run]
    rw [hp]
    cases ev with
    | submit sub => exact view_submit ih sub
    | refuse i c e =>
      simp only [Served.step, plain, Pool.step]
      by_cases hi : i = j
      · subst hi
        exact view_own hq ih c _
      · rw [view_other cb _ hi, view_other_plain _ hi, ih]
    | deliver i c o =>
      rw [step_deliver_pool cb ha']
      simp only [plain, Pool.step]
      by_cases hi : i = j
      · subst hi
        exact view_own hq ih c _
      · rw [view_other cb _ hi, view_other_plain _ hi, ih]

/-- C251, the part that holds: as long as the thread lives, a job whose own callbacks return has exactly the handle it has in a pool whose callbacks all return, and is in the
cache exactly then, whatever other callbacks did. So C28 to C32 hold for it. -/
theorem C251_isolated_partial {cb : Nat → Outcome β ε} {j : Nat} (hq : ∀ c, cb j c = none) (evs : List (CEvent β ε))
    (ha : (Served.run cb evs).alive = true) :
    (Served.run cb evs).pool.handle? j = (Pool.run (evs.map plain)).handle? j ∧
    (Served.run cb evs).pool.cache.get? j = (Pool.run (evs.map plain)).cache.get? j := by
  have h := same_view hq evs ha
  refine ⟨view_handle h, ?_⟩
  simp only [view, Prod.mk.injEq] at h
  exact h.2.1

/-- The thread lives as long as no callback raises anything but a `KeyError`; callbacks called when a task cannot be put into the queue do not end it in any case. -/
theorem C251_alive {cb : Nat → Outcome β ε} (evs : List (CEvent β ε))
    (hk : ∀ (j c : Nat) (o : Obj β ε) (k : Call β ε) (e : Err), CEvent.deliver j c o ∈ evs → cb j k = some e → e = .key) : (Served.run cb evs).alive = true := by
  induction evs using List.reverseRecOn with
  | nil => rfl
  | append_singleton evs ev ih =>
    have ih := ih (fun j c o k e h => hk j c o k e (by simp [h]))
    rw [run_snoc]
    cases ev with
    | submit sub => exact ih
    | refuse i c e => exact ih
    | deliver i c o =>
      have key : ∀ e, ((Served.run cb evs).pool.deliverC cb i c o).2 = some e → e = .key := by
        intro e he
        unfold Pool.deliverC at he
        cases hc : (Served.run cb evs).pool.cache.get? i with
        | none => simp [hc] at he; exact he.symm
        | some h =>
          simp only [hc] at he
          rcases hx : h.setC (cb i) c o with ⟨h', rm, e'⟩
          have he' : e' = some e := by
            rw [hx] at he
            cases rm <;> simpa using he
          subst he'
          have : ∃ k, cb i k = some e := by
            cases h with
            | async r =>
              unfold Handle.setC AsyncRes.setC at hx
              simp only at hx
              split at hx <;> rename_i hy <;> simp only [Prod.mk.injEq, Option.some.injEq] at hx
              · obtain ⟨-, -, rfl⟩ := hx
                split at hy
                · simp at hy
                · split at hy
                  · rename_i e2 h2
                    simp only [Prod.mk.injEq, Option.some.injEq] at hy
                    exact ⟨_, by rw [h2, hy.2]⟩
                  · simp at hy
              · simp at hx
            | map r =>
              unfold Handle.setC MapRes.setC at hx
              simp only at hx
              split at hx <;> rename_i hy <;> simp only [Prod.mk.injEq, Option.some.injEq] at hx
              · obtain ⟨-, -, rfl⟩ := hx
                split at hy
                · split at hy
                  · simp at hy
                  · split at hy
                    · rename_i e2 h2
                      simp only [Prod.mk.injEq, Option.some.injEq] at hy
                      exact ⟨_, by rw [h2, hy.2]⟩
                    · simp at hy
                · simp at hy
              · simp at hx
            | imap it => simp [Handle.setC] at hx
            | imapUnordered it => simp [Handle.setC] at hx
          obtain ⟨k, hk'⟩ := this
          exact hk i c o k e (by simp) hk'
      simp only [Served.step, ih, if_true]
      rcases hx : (Served.run cb evs).pool.deliverC cb i c o with ⟨p, e⟩
      rw [hx] at key
      cases e with
      | none => rfl
      | some e => rw [key e rfl]

example : (Served.run (fun j _ => if j = 0 then some .key else none) twoJobs).pool.handle? 1 = (Pool.run (twoJobs.map plain)).handle? 1 :=
  (C251_isolated_partial (by simp) twoJobs (C251_alive twoJobs (by
    intro j c o k e _ h
    by_cases hj : j = 0
    · simpa [hj] using h.symm
    · simp [hj] at h))).1

/-- If no callback raises, the pool is the one of C28 to C32. -/
theorem C251_quiet_partial {cb : Nat → Outcome β ε} (hq : ∀ j c, cb j c = none) (evs : List (CEvent β ε)) (j : Nat) :
    (Served.run cb evs).alive = true ∧ (Served.run cb evs).pool.handle? j = (Pool.run (evs.map plain)).handle? j := by
  have ha := C251_alive (cb := cb) evs (fun j _ _ k e _ h => by rw [hq] at h; cases h)
  exact ⟨ha, (C251_isolated_partial (hq j) evs ha).1⟩

/-- Once the thread has ended no result is handed out: a job that was submitted before keeps its handle whatever arrives, so it is answered never if it was not yet. -/
theorem C251_dead (cb : Nat → Outcome β ε) (evs more : List (CEvent β ε)) (hd : (Served.run cb evs).alive = false) (j : Nat)
    (hj : j < (asked evs).length) (hm : ∀ c e, CEvent.refuse j c e ∉ more) :
    (Served.run cb (evs ++ more)).alive = false ∧ (Served.run cb (evs ++ more)).pool.handle? j = (Served.run cb evs).pool.handle? j ∧
    (Served.run cb (evs ++ more)).pool.cache.get? j = (Served.run cb evs).pool.cache.get? j := by
  induction more using List.reverseRecOn with
  | nil => simp [hd]
  | append_singleton more ev ih =>
    have ih := ih (fun c e h => hm c e (by simp [h]))
    rw [← List.append_assoc, run_snoc]
    cases ev with
    | submit sub =>
      have hc := run_counter cb (evs ++ more)
      rw [asked_append, List.length_append] at hc
      obtain ⟨-, h2, h3⟩ := view_later (Served.run cb (evs ++ more)).pool (j := j) (by omega) sub
      refine ⟨ih.1, ?_, ?_⟩
      · rw [← ih.2.1]
        simp only [Served.step, Pool.handle?, h2, h3]
      · rw [← ih.2.2]
        exact h2
    | deliver i c o =>
      simpa [Served.step, ih.1] using ih
    | refuse i c e =>
      have hi : i ≠ j := by
        rintro rfl
        exact hm c e (by simp)
      have hv := view_other cb (Served.run cb (evs ++ more)).pool hi c (.error e)
      refine ⟨ih.1, ?_, ?_⟩
      · rw [← ih.2.1]
        exact view_handle hv
      · rw [← ih.2.2]
        simp only [view, Prod.mk.injEq] at hv
        exact hv.2.1

/-- The exact condition for `apply_async`: the job is answered, and leaves the cache, exactly if the thread lives when the result arrives and the callback called for it, if there is one, returns. -/
theorem C251_answered (cb : Nat → Outcome β ε) (pre post : List (CEvent β ε)) (j c : Nat) (o : Obj β ε) (hasCb hasE : Bool)
    (hs : (asked pre)[j]? = some (.apply hasCb hasE)) (h1 : ∀ ev ∈ pre, about ev ≠ some j) (h2 : ∀ ev ∈ post, about ev ≠ some j) :
    let s := Served.run cb (pre ++ .deliver j c o :: post)
    let fine := (Served.run cb pre).alive = true ∧ (∀ l, o = .ok l → hasCb = true → cb j (.callback (l.map some)) = none) ∧
      (∀ e, o = .error e → hasE = true → cb j (.errorCallback e) = none)
    (fine → ∃ r, s.pool.handle? j = some (.async r) ∧ r.ready = true ∧ r.value = some o ∧ s.pool.cache.get? j = none) ∧
    (¬ fine → ∃ r, s.pool.handle? j = some (.async r) ∧ r.ready = false ∧ s.pool.cache.get? j = some (.async r) ∧ s.pool.canFinish = false) := by
  have hf := run_fresh cb pre hs h1 rfl
  have hj : j < (asked pre).length := by
    by_contra hc
    rw [List.getElem?_eq_none (by omega)] at hs
    simp at hs
  have hcnt := run_counter cb pre
  simp only [Submit.handle] at hf
  have hrun : Served.run cb (pre ++ .deliver j c o :: post) = post.foldl (Served.step cb) ((Served.run cb pre).step cb (.deliver j c o)) := by
    simp [Served.run]
  have hk : j < ((Served.run cb pre).step cb (.deliver j c o)).pool.counter := by
    by_cases ha : (Served.run cb pre).alive
    · rw [step_deliver_pool cb ha, deliverC_counter]; omega
    · simp only [Served.step, ha]; simp; omega
  obtain ⟨-, k2, k3⟩ := run_kept (cb := cb) _ hk post h2
  have stay : ∀ r, ((Served.run cb pre).step cb (.deliver j c o)).pool.cache.get? j = some (.async r) → r.ready = false →
      ∃ r, (Served.run cb (pre ++ .deliver j c o :: post)).pool.handle? j = some (.async r) ∧ r.ready = false ∧
        (Served.run cb (pre ++ .deliver j c o :: post)).pool.cache.get? j = some (.async r) ∧
        (Served.run cb (pre ++ .deliver j c o :: post)).pool.canFinish = false := by
    intro r hr hr2
    rw [← k2, ← hrun] at hr
    refine ⟨r, by simp [Pool.handle?, hr], hr2, hr, ?_⟩
    unfold Pool.canFinish
    cases hc : (Served.run cb (pre ++ .deliver j c o :: post)).pool.cache with
    | nil => rw [hc] at hr; simp at hr
    | cons x xs => rfl
  have leave : ∀ r, ((Served.run cb pre).step cb (.deliver j c o)).pool.cache.get? j = none →
      ((Served.run cb pre).step cb (.deliver j c o)).pool.done.get? j = some (.async r) → r.ready = true → r.value = some o →
      ∃ r, (Served.run cb (pre ++ .deliver j c o :: post)).pool.handle? j = some (.async r) ∧ r.ready = true ∧ r.value = some o ∧
        (Served.run cb (pre ++ .deliver j c o :: post)).pool.cache.get? j = none := by
    intro r hr hd hr2 hr3
    rw [← k2, ← hrun] at hr
    rw [← k3, ← hrun] at hd
    exact ⟨r, by simp [Pool.handle?, hr, hd], hr2, hr3, hr⟩
  intro s fine
  by_cases ha : (Served.run cb pre).alive = true
  · have hp := step_deliver_pool cb ha j c o
    rw [hp] at stay leave
    unfold Pool.deliverC at stay leave
    rw [hf] at stay leave
    cases o with
    | ok l =>
      cases hasCb with
      | false =>
        refine ⟨fun _ => ?_, fun hn => absurd ⟨ha, by simp, by simp⟩ hn⟩
        refine leave ⟨false, hasE, some (.ok l), true, []⟩ ?_ ?_ rfl rfl <;>
          simp [Handle.setC, AsyncRes.setC, AsyncRes.new, PyDict.get?_set, PyDict.get?_erase]
      | true =>
        cases hcb : cb j (.callback (l.map some)) with
        | none =>
          refine ⟨fun _ => ?_, fun hn => absurd ⟨ha, by simpa using hcb, by simp⟩ hn⟩
          refine leave ⟨true, hasE, some (.ok l), true, [.callback (l.map some)]⟩ ?_ ?_ rfl rfl <;>
            simp [Handle.setC, AsyncRes.setC, AsyncRes.new, hcb, PyDict.get?_set, PyDict.get?_erase]
        | some e =>
          refine ⟨fun hy => ?_, fun _ => ?_⟩
          · have := hy.2.1 l rfl rfl
            rw [hcb] at this
            cases this
          · refine stay ⟨true, hasE, some (.ok l), false, [.callback (l.map some)]⟩ ?_ rfl
            simp [Handle.setC, AsyncRes.setC, AsyncRes.new, hcb, PyDict.get?_set]
    | error x =>
      cases hasE with
      | false =>
        refine ⟨fun _ => ?_, fun hn => absurd ⟨ha, by simp, by simp⟩ hn⟩
        refine leave ⟨hasCb, false, some (.error x), true, []⟩ ?_ ?_ rfl rfl <;>
          simp [Handle.setC, AsyncRes.setC, AsyncRes.new, PyDict.get?_set, PyDict.get?_erase]
      | true =>
        cases hcb : cb j (.errorCallback x) with
        | none =>
          refine ⟨fun _ => ?_, fun hn => absurd ⟨ha, by simp, by simpa using hcb⟩ hn⟩
          refine leave ⟨hasCb, true, some (.error x), true, [.errorCallback x]⟩ ?_ ?_ rfl rfl <;>
            simp [Handle.setC, AsyncRes.setC, AsyncRes.new, hcb, PyDict.get?_set, PyDict.get?_erase]
        | some e =>
          refine ⟨fun hy => ?_, fun _ => ?_⟩
          · have := hy.2.2 x rfl rfl
            rw [hcb] at this
            cases this
          · refine stay ⟨hasCb, true, some (.error x), false, [.errorCallback x]⟩ ?_ rfl
            simp [Handle.setC, AsyncRes.setC, AsyncRes.new, hcb, PyDict.get?_set]
  · refine ⟨fun hy => absurd hy.1 ha, fun _ => stay (AsyncRes.new hasCb hasE) ?_ rfl⟩
    simp only [Served.step, ha]
    simpa using hf

/-- Non-vacuity: a second job after the first one's callback returned. -/
example : ∃ r, (Served.run (fun j _ => if j = 1 then some .zeroDiv else none) twoJobs).pool.handle? 0 = some (.async r) ∧ r.ready = true := by
  obtain ⟨r, h1, h2, -⟩ := (C251_answered (fun j _ => if j = 1 then some .zeroDiv else none) (twoJobs.take 2) (twoJobs.drop 3) 0 0 (.ok [1]) true false rfl
    (by intro ev h; simp [twoJobs] at h; rcases h with rfl | rfl <;> simp [about]) (by intro ev h; simp [twoJobs] at h; subst h; simp [about])).1
    ⟨by decide, by simp, by simp⟩
  exact ⟨r, h1, h2⟩

end Machin.Pool
