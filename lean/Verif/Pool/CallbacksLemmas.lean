import Verif.Pool.CallbacksSpec
import Mathlib.Data.List.Induction

/-! # Lemmas on callbacks that raise -/

namespace Machin.Pool

open Spec

variable {β ε : Type}

theorem async_quiet {cb : Outcome β ε} (hq : ∀ c, cb c = none) (r : AsyncRes β ε) (chunk : Nat) (obj : Obj β ε) :
    r.setC cb chunk obj = (r.set chunk obj, none) := by
  cases obj with
  | ok l => by_cases h : r.hasCallback <;> simp [AsyncRes.setC, AsyncRes.set, h, hq]
  | error e => by_cases h : r.hasErrorCallback <;> simp [AsyncRes.setC, AsyncRes.set, h, hq]

theorem map_quiet {cb : Outcome β ε} (hq : ∀ c, cb c = none) (r : MapRes β ε) (chunk : Nat) (obj : Obj β ε) :
    r.setC cb chunk obj = (r.set chunk obj, none) := by
  obtain ⟨cs, left, value, ready, hc, he, calls⟩ := r
  by_cases hl : left - 1 = 0 <;> cases obj <;> cases value <;> cases hc <;> cases he <;>
    simp [MapRes.setC, MapRes.set, hl, hq]

theorem handle_quiet {cb : Outcome β ε} (hq : ∀ c, cb c = none) (h : Handle β ε) (chunk : Nat) (obj : Obj β ε) :
    h.setC cb chunk obj = ((h.set chunk obj).1, (h.set chunk obj).2, none) := by
  cases h with
  | async r => simp [Handle.setC, Handle.set, async_quiet hq]
  | map r => simp [Handle.setC, Handle.set, map_quiet hq]
  | imap it => simp [Handle.setC]
  | imapUnordered it => simp [Handle.setC]

/-- What a job sees of a pool. -/
def view (p : Pool β ε) (j : Nat) : Nat × Option (Handle β ε) × Option (Handle β ε) := (p.counter, p.cache.get? j, p.done.get? j)

theorem view_handle {p q : Pool β ε} {j : Nat} (h : view p j = view q j) : p.handle? j = q.handle? j := by
  simp only [view, Prod.mk.injEq] at h
  simp [Pool.handle?, h.2.1, h.2.2]

theorem view_submit {p q : Pool β ε} {j : Nat} (h : view p j = view q j) (s : Submit) : view (p.submit s) j = view (q.submit s) j := by
  simp only [view, Prod.mk.injEq] at h
  obtain ⟨h1, h2, h3⟩ := h
  unfold Pool.submit Pool.register
  by_cases hs : (s.handle (β := β) (ε := ε)).2
  · simp [hs, view, PyDict.get?_set, h1, h2, h3]
  · simp [hs, view, PyDict.get?_set, h1, h2, h3]

/-- Events about other jobs. -/
theorem view_other (cb : Nat → Outcome β ε) (p : Pool β ε) {i j : Nat} (hij : i ≠ j) (c : Nat) (o : Obj β ε) :
    view (p.deliverC cb i c o).1 j = view p j := by
  have hji : j ≠ i := fun h => hij h.symm
  unfold Pool.deliverC
  cases hc : p.cache.get? i with
  | none => rfl
  | some h =>
    rcases hx : h.setC (cb i) c o with ⟨h', rm, e⟩
    cases rm <;> simp [hx, view, PyDict.get?_set, PyDict.get?_erase, hji]

theorem view_other_plain (p : Pool β ε) {i j : Nat} (hij : i ≠ j) (c : Nat) (o : Obj β ε) : view (p.deliver i c o) j = view p j := by
  have hji : j ≠ i := fun h => hij h.symm
  unfold Pool.deliver
  cases hc : p.cache.get? i with
  | none => rfl
  | some h =>
    by_cases hb : (h.set c o).2 <;> simp [hb, view, PyDict.get?_set, PyDict.get?_erase, hji]

/-- Events about a job whose callbacks return. -/
theorem view_own {cb : Nat → Outcome β ε} {j : Nat} (hq : ∀ c, cb j c = none) {p q : Pool β ε} (h : view p j = view q j) (c : Nat) (o : Obj β ε) :
    view (p.deliverC cb j c o).1 j = view (q.deliver j c o) j := by
  simp only [view, Prod.mk.injEq] at h
  obtain ⟨h1, h2, h3⟩ := h
  unfold Pool.deliverC Pool.deliver
  rw [h2]
  cases hc : q.cache.get? j with
  | none => simp [view, h1, h2, h3]
  | some h =>
    simp only [handle_quiet hq]
    by_cases hb : (h.set c o).2 <;> simp [hb, view, PyDict.get?_set, PyDict.get?_erase, h1, h3]

theorem run_snoc (cb : Nat → Outcome β ε) (evs : List (CEvent β ε)) (ev : CEvent β ε) :
    Served.run cb (evs ++ [ev]) = (Served.run cb evs).step cb ev := by simp [Served.run]

theorem alive_snoc {cb : Nat → Outcome β ε} {s : Served β ε} {ev : CEvent β ε} (h : (s.step cb ev).alive = true) : s.alive = true := by
  cases ev with
  | submit sub => exact h
  | refuse j c e => exact h
  | deliver j c o =>
    by_cases ha : s.alive
    · exact ha
    · simp [Served.step, ha] at h

theorem step_deliver_pool (cb : Nat → Outcome β ε) {s : Served β ε} (ha : s.alive = true) (j c : Nat) (o : Obj β ε) :
    (s.step cb (.deliver j c o)).pool = (s.pool.deliverC cb j c o).1 := by
  simp only [Served.step, ha, if_true]
  split <;> simp_all

theorem view_step {cb : Nat → Outcome β ε} {j : Nat} (s : Served β ε) (ev : CEvent β ε) (hn : about ev ≠ some j) (hs : about ev ≠ none) :
    view (s.step cb ev).pool j = view s.pool j := by
  cases ev with
  | submit sub => exact absurd rfl hs
  | refuse i c e => exact view_other cb _ (by simpa [about] using hn) c _
  | deliver i c o =>
    by_cases ha : s.alive
    · rw [step_deliver_pool cb ha]
      exact view_other cb _ (by simpa [about] using hn) c o
    · simp [Served.step, ha]

/-- A submission of a later job. -/
theorem view_later (p : Pool β ε) {j : Nat} (hj : j < p.counter) (s : Submit) :
    (p.submit s).counter = p.counter + 1 ∧ (p.submit s).cache.get? j = p.cache.get? j ∧ (p.submit s).done.get? j = p.done.get? j := by
  have hne : j ≠ p.counter := by omega
  unfold Pool.submit Pool.register
  by_cases hs : (s.handle (β := β) (ε := ε)).2 <;> simp [hs, PyDict.get?_set, hne]

/-- Events about other jobs leave a job that was submitted as it is. -/
theorem run_kept {cb : Nat → Outcome β ε} {j : Nat} (s : Served β ε) (hj : j < s.pool.counter) (more : List (CEvent β ε))
    (hm : ∀ ev ∈ more, about ev ≠ some j) :
    j < (more.foldl (Served.step cb) s).pool.counter ∧ (more.foldl (Served.step cb) s).pool.cache.get? j = s.pool.cache.get? j ∧
    (more.foldl (Served.step cb) s).pool.done.get? j = s.pool.done.get? j := by
  induction more generalizing s with
  | nil => exact ⟨hj, rfl, rfl⟩
  | cons ev more ih =>
    have hm' : ∀ ev ∈ more, about ev ≠ some j := fun e he => hm e (by simp [he])
    simp only [List.foldl_cons]
    cases ev with
    | submit sub =>
      obtain ⟨h1, h2, h3⟩ := view_later s.pool hj sub
      have hs : (s.step cb (.submit sub)).pool = s.pool.submit sub := rfl
      have := ih (s.step cb (.submit sub)) (by rw [hs, h1]; omega) hm'
      rw [hs, h2, h3] at this
      exact this
    | deliver i c o =>
      have hv := view_step (cb := cb) s (.deliver i c o) (hm _ (by simp)) (by simp [about])
      simp only [view, Prod.mk.injEq] at hv
      have := ih (s.step cb (.deliver i c o)) (by rw [hv.1]; exact hj) hm'
      rw [hv.2.1, hv.2.2] at this
      exact this
    | refuse i c e =>
      have hv := view_step (cb := cb) s (.refuse i c e) (hm _ (by simp)) (by simp [about])
      simp only [view, Prod.mk.injEq] at hv
      have := ih (s.step cb (.refuse i c e)) (by rw [hv.1]; exact hj) hm'
      rw [hv.2.1, hv.2.2] at this
      exact this

theorem asked_append (a b : List (CEvent β ε)) : asked (a ++ b) = asked a ++ asked b := by
  induction a with
  | nil => rfl
  | cons ev a ih => cases ev <;> simp [asked, ih]

theorem deliverC_counter (cb : Nat → Outcome β ε) (p : Pool β ε) (i c : Nat) (o : Obj β ε) : (p.deliverC cb i c o).1.counter = p.counter := by
  unfold Pool.deliverC
  cases hc : p.cache.get? i with
  | none => rfl
  | some h =>
    rcases hx : h.setC (cb i) c o with ⟨h', rm, e⟩
    cases rm <;> simp [hx]

theorem run_counter (cb : Nat → Outcome β ε) (evs : List (CEvent β ε)) : (Served.run cb evs).pool.counter = (asked evs).length := by
  induction evs using List.reverseRecOn with
  | nil => rfl
  | append_singleton evs ev ih =>
    rw [run_snoc, asked_append, List.length_append]
    cases ev with
    | submit sub =>
      have : ((Served.run cb evs).step cb (.submit sub)).pool = (Served.run cb evs).pool.submit sub := rfl
      rw [this]
      unfold Pool.submit Pool.register
      by_cases hs : (sub.handle (β := β) (ε := ε)).2 <;> simp [hs, ih, asked]
    | refuse i c e =>
      simp only [Served.step, deliverC_counter, ih, asked, List.length_nil, Nat.add_zero]
    | deliver i c o =>
      by_cases ha : (Served.run cb evs).alive
      · rw [step_deliver_pool cb ha, deliverC_counter, ih]; rfl
      · simp [Served.step, ha, ih, asked]

/-- A job about which nothing has happened yet. -/
theorem run_fresh (cb : Nat → Outcome β ε) (evs : List (CEvent β ε)) {j : Nat} {s : Submit} (hs : (asked evs)[j]? = some s)
    (hm : ∀ ev ∈ evs, about ev ≠ some j) (hr : (s.handle (β := β) (ε := ε)).2 = true) :
    (Served.run cb evs).pool.cache.get? j = some s.handle.1 := by
  induction evs using List.reverseRecOn with
  | nil => simp [asked] at hs
  | append_singleton evs ev ih =>
    have hm' : ∀ ev ∈ evs, about ev ≠ some j := fun e he => hm e (by simp [he])
    have hev := hm ev (by simp)
    rw [asked_append] at hs
    have hc := run_counter cb evs
    rw [run_snoc]
    cases ev with
    | submit sub =>
      have hst : ((Served.run cb evs).step cb (.submit sub)).pool = (Served.run cb evs).pool.submit sub := rfl
      rw [hst]
      by_cases hj : j < (asked evs).length
      · rw [List.getElem?_append_left hj] at hs
        rw [(view_later _ (by rw [hc]; exact hj) sub).2.1]
        exact ih hs hm'
      · rw [List.getElem?_append_right (by omega)] at hs
        have hj2 : j - (asked evs).length = 0 := by
          by_contra hne
          have : 1 ≤ j - (asked evs).length := by omega
          rw [List.getElem?_eq_none (by simpa [asked] using this)] at hs
          simp at hs
        have hj3 : j = (Served.run cb evs).pool.counter := by omega
        rw [hj2] at hs
        simp only [asked, List.getElem?_cons_zero, Option.some.injEq] at hs
        subst hs
        unfold Pool.submit Pool.register
        rw [hr]
        simp [PyDict.get?_set, hj3]
    | refuse i c e =>
      simp only [asked, List.append_nil] at hs
      have hv := view_step (cb := cb) (Served.run cb evs) (.refuse i c e) hev (by simp [about])
      simp only [view, Prod.mk.injEq] at hv
      rw [hv.2.1]
      exact ih hs hm'
    | deliver i c o =>
      simp only [asked, List.append_nil] at hs
      have hv := view_step (cb := cb) (Served.run cb evs) (.deliver i c o) hev (by simp [about])
      simp only [view, Prod.mk.injEq] at hv
      rw [hv.2.1]
      exact ih hs hm'

end Machin.Pool
