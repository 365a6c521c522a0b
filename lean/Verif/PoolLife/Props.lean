import Verif.PoolLife.Live
import Verif.PoolLife.IterLemmas

/-! # C174 to C176: how a pool ends, the default chunk size of `map`, and consumers of `imap` that wait -/

namespace Machin.PoolLife

/-! ## C174: `close` lets every submitted task finish, `terminate` ends every worker

A history is any list of steps of the user, the two handlers and the workers. -/

/-- At every moment: no task is executed twice or delivered twice, only submitted tasks are executed, and only executed ones
are delivered. -/
theorem C174_once (processes : Nat) (maxtasks : Option Nat) (steps : List Step) (t : Nat) :
    let s := run processes maxtasks (init processes) steps
    s.submitted.count t ≤ 1 ∧ s.executed.count t ≤ s.submitted.count t ∧ s.delivered.count t ≤ s.executed.count t := by
  intro s
  have h : Inv processes s := (Inv.init processes).run maxtasks steps
  have hd : s.submitted.count t ≤ 1 := by
    rw [h.distinct]
    exact List.nodup_iff_count.1 List.nodup_range t
  refine ⟨hd, ?_, ?_⟩
  · have h1 := h.executed t
    have h2 := h.account t
    have h3 : s.outq.count t ≤ s.cache.count t :=
      outq_le_run maxtasks steps (Inv.init processes) (fun t => Nat.le_refl _) t
    omega
  · have := h.executed t
    omega

/-- When `join` returns after `close`, every submitted task has been executed and delivered, each exactly once. -/
theorem C174_close (processes : Nat) (maxtasks : Option Nat) (steps : List Step) :
    let s := run processes maxtasks (init processes) steps
    s.mode = .close → Joined s →
      (∀ t, s.executed.count t = s.submitted.count t ∧ s.delivered.count t = s.submitted.count t) ∧ s.cache = [] := by
  intro s hm hj
  have h : Inv processes s := (Inv.init processes).run maxtasks steps
  have hc : s.cache = [] := (h.left (Or.inr hj.2.1)).2 hm
  refine ⟨fun t => ?_, hc⟩
  have hk : s.killed = false := by
    cases hk : s.killed with
    | false => rfl
    | true => have := (h.killed hk).1; rw [hm] at this; cases this
  have h1 := h.account t
  have h2 := h.executed t
  have h3 := h.cached hk t
  rw [hc, List.count_nil] at h1 h3
  omega

/-- After `close`, whatever has happened before, the pool can still come to its end: no state is stuck, even if all workers
have just used up their `maxtasksperchild`. -/
theorem C174_close_ends (processes : Nat) (maxtasks : Option Nat) (steps : List Step) (hp : 0 < processes)
    (hm : (run processes maxtasks (init processes) steps).mode = .close) :
    ∃ more, Joined (run processes maxtasks (init processes) (steps ++ more)) ∧
      (run processes maxtasks (init processes) (steps ++ more)).mode = .close := by
  rcases closes maxtasks hp ((Inv.init processes).run maxtasks steps) hm with ⟨more, h⟩
  exact ⟨more, by rw [run_append]; exact h⟩

/-- After `terminate`, whatever has happened before, the pool can come to its end. -/
theorem C174_terminate_ends (processes : Nat) (maxtasks : Option Nat) (steps : List Step)
    (hm : (run processes maxtasks (init processes) steps).mode = .terminate) :
    ∃ more, Joined (run processes maxtasks (init processes) (steps ++ more)) := by
  rcases terminates (processes := processes) maxtasks hm with ⟨more, h⟩
  exact ⟨more, by rw [run_append]; exact h.1⟩

/-- Nothing happens after the end: no worker is started, nothing is accepted, executed or delivered, whatever is called. -/
theorem C174_final (processes : Nat) (maxtasks : Option Nat) (steps more : List Step)
    (hj : Joined (run processes maxtasks (init processes) steps)) :
    let s := run processes maxtasks (init processes) steps
    let s' := run processes maxtasks (init processes) (steps ++ more)
    Joined s' ∧ s'.submitted = s.submitted ∧ s'.executed = s.executed ∧ s'.delivered = s.delivered := by
  intro s s'
  have : s' = run processes maxtasks s more := run_append _ _ _ _ _
  rw [this]
  exact joined_run processes maxtasks more hj

/-- A pool that is no longer running accepts nothing. -/
theorem C174_refuses (processes : Nat) (maxtasks : Option Nat) (s : St) (h : s.mode ≠ .run) :
    step processes maxtasks s .submit = s := by
  unfold step
  dsimp only
  rw [if_neg h]

/-- With `maxtasksperchild = m` no worker begins a task after `m` of them. -/
theorem C174_maxtasks (processes m : Nat) (hm : 0 < m) (steps : List Step) (i t c : Nat)
    (h : (run processes (some m) (init processes) steps).pool[i]? = some (.busy t c)) : c < m := by
  have h0 : ∀ w ∈ (init processes).pool, completedOf w < m := by
    intro w hw
    rw [(List.mem_replicate.1 hw).2]
    exact hm
  exact completed_run hm steps h0 _ (List.mem_of_getElem? h)

example : (run 1 (some 2) (init 1) [.submit, .submit, .get 0, .finish 0, .get 0]).pool[0]? = some (.busy 1 1) := by decide

/-- A pool of two workers of one task each: three tasks, `close`, and its end. -/
example :
    let s := run 2 (some 1) (init 2) [.submit, .submit, .submit, .get 1, .close, .get 0, .finish 0, .finish 1, .deliver, .sweep,
      .repopulate, .get 0, .deliver, .finish 0, .deliver, .rleave, .leave, .send, .send, .send, .get 1]
    s.mode = .close ∧ Joined s ∧ s.executed = [1, 0, 2] ∧ s.delivered = [1, 0, 2] := by decide

/-- After `terminate` a submitted task may be lost. -/
example :
    let s := run 1 none (init 1) [.submit, .get 0, .terminate, .rleave, .leave, .send, .send, .kill]
    Joined s ∧ s.submitted = [0] ∧ s.executed = [] := by decide

/-! ## C175: the default chunk size of `map` -/

/-- The full claim: `map` with the default chunk size can be called whenever the pool is running. -/
def C175_full : Prop :=
  ∀ (processes : Nat) (maxtasks : Option Nat) (steps : List Step) (n : Nat), 0 < processes → maxtasks ≠ some 0 →
    (run processes maxtasks (init processes) steps).mode = .run →
      ∃ c, chunkSize (run processes maxtasks (init processes) steps) n = .ok c

/-- It is false: the chunk size divides by the number of workers in the list, and the worker handler empties the list for a
moment when it replaces the workers that have used up their `maxtasksperchild`. -/
theorem C175_violated_window :
    let s := run 1 (some 1) (init 1) [.submit, .get 0, .finish 0, .deliver, .sweep]
    s.mode = .run ∧ chunkSize s 10 = .error .zeroDiv := by decide

theorem C175_violated : ¬ C175_full := by
  intro h
  rcases h 1 (some 1) [.submit, .get 0, .finish 0, .deliver, .sweep] 10 (by decide) (by decide) (by decide) with ⟨c, hc⟩
  rw [C175_violated_window.2] at hc
  cases hc

/-- With workers in the list the call is possible, and the chunk size is the smallest one that makes at most four chunks for
every worker in the list. -/
theorem C175_least_partial (s : St) (n : Nat) (hl : s.pool ≠ []) :
    ∃ c, chunkSize s n = .ok c ∧ n ≤ 4 * s.pool.length * c ∧ ∀ c', n ≤ 4 * s.pool.length * c' → c ≤ c' := by
  have hpos : 0 < s.pool.length := List.length_pos_iff.2 hl
  unfold chunkSize
  rw [if_neg (by omega)]
  have e4 : s.pool.length * 4 = 4 * s.pool.length := Nat.mul_comm _ _
  rw [e4]
  generalize hd : 4 * s.pool.length = d
  have hd0 : 0 < d := by omega
  have h1 := Nat.div_add_mod n d
  have h2 := Nat.mod_lt n hd0
  refine ⟨_, rfl, ?_, ?_⟩
  · split
    · rename_i h0; omega
    · split
      · rw [Nat.add_zero]; omega
      · rw [Nat.mul_add]; omega
  · intro c' hc'
    split
    · exact Nat.zero_le _
    · exact ceil_le hd0 hc'

/-- Outside that moment all `processes` workers are in the list. -/
theorem C175_steady_partial (processes : Nat) (maxtasks : Option Nat) (steps : List Step) (n : Nat) (hp : 0 < processes)
    (hw : (run processes maxtasks (init processes) steps).wh = .head) :
    ∃ c, chunkSize (run processes maxtasks (init processes) steps) n = .ok c ∧ n ≤ 4 * processes * c ∧
      ∀ c', n ≤ 4 * processes * c' → c ≤ c' := by
  have h := ((Inv.init processes).run maxtasks steps).head hw
  have hl : (run processes maxtasks (init processes) steps).pool ≠ [] := by
    intro e; rw [e] at h; simp at h; omega
  have := C175_least_partial (run processes maxtasks (init processes) steps) n hl
  rwa [h] at this

/-- Without `maxtasksperchild` the claim holds in every running state. -/
theorem C175_partial (processes : Nat) (steps : List Step) (n : Nat) (hp : 0 < processes)
    (hm : (run processes none (init processes) steps).mode = .run) :
    ∃ c, chunkSize (run processes none (init processes) steps) n = .ok c ∧ n ≤ 4 * processes * c ∧
      ∀ c', n ≤ 4 * processes * c' → c ≤ c' := by
  have hi := (Inv.init processes).run none steps
  have hf : Full processes (run processes none (init processes) steps) := by
    refine Full.run steps (Inv.init processes) ?_
    intro _
    refine ⟨by simp [init], ?_⟩
    intro hmem
    simp only [init, List.mem_replicate] at hmem
    cases hmem.2
  have h := (hf (fun hl => (hi.left hl).1 hm)).1
  have hl : (run processes none (init processes) steps).pool ≠ [] := by
    intro e; rw [e] at h; simp at h; omega
  have := C175_least_partial (run processes none (init processes) steps) n hl
  rwa [h] at this

example : chunkSize (run 2 none (init 2) [.submit, .get 1, .sweep]) 17 = .ok 3 ∧
    (run 2 none (init 2) [.submit, .get 1, .sweep]).mode = .run := by decide

/-! ## C176: consumers of an imap iterator that wait -/

/-- All results have arrived, a consumer waits, and nobody who has been notified is left to take its turn: it waits for ever. -/
def Hangs (it : Iter) : Prop := it.waiting ≠ [] ∧ it.woken = [] ∧ it.length ≤ it.index

instance (it : Iter) : Decidable (Hangs it) := by unfold Hangs; infer_instance

/-- Every index below the length arrives at most once. -/
def ResultsOnce (length : Nat) (steps : List IStep) : Prop :=
  (steps.filterMap fun st => match st with | .result i _ => some i | _ => none).Nodup ∧
    ∀ i v, IStep.result i v ∈ steps → i < length

/-- The full claim: a call of `next()` without a timeout never waits for ever once all results have arrived, and never raises
`TimeoutError`, whoever else uses the iterator. -/
def C176_full : Prop :=
  ∀ (ordered : Bool) (length : Nat) (steps : List IStep), ResultsOnce length steps →
    ¬ Hangs (irun ordered (Iter.new length) steps) ∧
      ∀ c, (c, Out.timeoutError) ∉ (irun ordered (Iter.new length) steps).outs

/-- Two consumers wait, the results arrive in reverse order, one `notify` announces both: one consumer gets its item, the other
waits for ever although an item is there. -/
theorem C176_violated_ordered :
    let it := irun true (Iter.new 2) [.next 0, .next 1, .result 1 11, .result 0 10, .wake 0]
    Hangs it ∧ it.items = [11] ∧ it.outs = [(0, .item 10)] := by decide

/-- Two consumers wait for the only result: the second is not told that there is nothing more. -/
theorem C176_violated_end :
    let it := irun false (Iter.new 1) [.next 0, .next 1, .result 0 10, .wake 0]
    Hangs it ∧ it.outs = [(0, .item 10)] := by decide

/-- A consumer that comes in between takes the item: the notified one raises `TimeoutError` although it gave no timeout and the
next item is still to come. -/
theorem C176_violated_timeout :
    (irun true (Iter.new 2) [.next 0, .result 0 10, .next 1, .wake 0]).outs = [(1, .item 10), (0, .timeoutError)] := by decide

theorem C176_violated : ¬ C176_full := by
  intro h
  have := (h true 2 [.next 0, .next 1, .result 1 11, .result 0 10, .wake 0] ⟨by decide, by
    intro i v hm
    simp only [List.mem_cons, List.not_mem_nil, or_false] at hm
    rcases hm with hm | hm | hm | hm | hm <;> cases hm <;> decide⟩).1
  exact this C176_violated_ordered.1

/-- A single consumer: it waits only as long as no item is there and not everything has arrived, and it never sees a
`TimeoutError`. -/
theorem C176_partial (ordered : Bool) (length c : Nat) (steps : List IStep) (hs : ∀ st ∈ steps, OnlyBy c st) :
    let it := irun ordered (Iter.new length) steps
    (it.waiting ≠ [] → it.items = [] ∧ it.index ≠ it.length) ∧ ∀ c', (c', Out.timeoutError) ∉ it.outs := by
  intro it
  have h : One c it := (One.new c length).run ordered steps hs
  refine ⟨?_, fun c' hm => h.quiet _ hm rfl⟩
  intro hw
  rcases h.shape with ⟨a, _⟩ | ⟨_, _, a, b⟩ | ⟨a, _⟩
  · exact absurd a hw
  · exact ⟨a, b⟩
  · exact absurd a hw

/-- Whoever else uses the iterator: a call that returns an item returns the first one there is; one that ends in `StopIteration` found no item after
everything had arrived; one that ends in `TimeoutError` had been notified and found no item before that. Missing from the full claim: the last case. -/
theorem C176_outs_partial (ordered : Bool) (it : Iter) (st : IStep) (c : Nat) (o : Out) (h : (istep ordered it st).outs = it.outs ++ [(c, o)]) :
    (∀ v, o = .item v → it.items.head? = some v) ∧
    (o = .stopIteration → it.items = [] ∧ it.index = it.length) ∧
    (o = .timeoutError → c ∈ it.woken ∧ it.items = [] ∧ it.index ≠ it.length) := by
  have keep : ∀ (n : Nat) (j : Iter), (Iter.flush n j).outs = j.outs := by
    intro n
    induction n with
    | zero => intro j; rfl
    | succ n ih =>
      intro j
      unfold Iter.flush
      split
      · rw [ih]
      · rfl
  have note : ∀ j : Iter, j.notify.outs = j.outs := by
    intro j
    unfold Iter.notify
    split <;> rfl
  have no : ∀ x : Nat × Out, ¬ it.outs = it.outs ++ [x] := by
    intro x hx
    have := congrArg List.length hx
    simp at this
  cases st with
  | result i v =>
    exfalso
    simp only [istep, Iter.set, Iter.setUnordered] at h
    split at h
    · split at h
      · rw [note, keep] at h; exact no _ h
      · exact no _ h
    · rw [note] at h; exact no _ h
  | next d =>
    simp only [istep] at h
    split at h
    · exact absurd h (no _)
    · split at h
      · next v rest hi =>
        have := List.append_cancel_left h
        cases this
        simp [hi]
      · next hi =>
        split at h
        · next hl =>
          have := List.append_cancel_left h
          cases this
          simp [hi, hl]
        · exact absurd h (no _)
  | wake d =>
    simp only [istep] at h
    split at h
    · next hd =>
      split at h
      · next v rest hi =>
        have := List.append_cancel_left h
        cases this
        simp [hi]
      · next hi =>
        have := List.append_cancel_left h
        by_cases hl : it.index = it.length
        · rw [if_pos hl] at this
          cases this
          simp [hi, hl]
        · rw [if_neg hl] at this
          cases this
          simp [hi, hl, hd]
    · exact absurd h (no _)

/-- A single consumer that has been notified gets an item. -/
theorem C176_wake_partial (ordered : Bool) (length c : Nat) (steps : List IStep) (hs : ∀ st ∈ steps, OnlyBy c st)
    (hw : c ∈ (irun ordered (Iter.new length) steps).woken) :
    ∃ v rest, (irun ordered (Iter.new length) steps).items = v :: rest ∧
      (irun ordered (Iter.new length) (steps ++ [.wake c])).outs =
        (irun ordered (Iter.new length) steps).outs ++ [(c, .item v)] := by
  have h : One c (irun ordered (Iter.new length) steps) := (One.new c length).run ordered steps hs
  have h2 : (irun ordered (Iter.new length) steps).items ≠ [] := by
    rcases h.shape with ⟨_, b⟩ | ⟨_, b, _⟩ | ⟨_, _, a⟩
    · rw [b] at hw; cases hw
    · rw [b] at hw; cases hw
    · exact a
  cases hi : (irun ordered (Iter.new length) steps).items with
  | nil => exact absurd hi h2
  | cons v rest =>
    refine ⟨v, rest, rfl, ?_⟩
    have e : irun ordered (Iter.new length) (steps ++ [.wake c]) =
        istep ordered (irun ordered (Iter.new length) steps) (.wake c) := by
      simp [irun]
    rw [e]
    generalize irun ordered (Iter.new length) steps = it at hw hi
    unfold istep
    simp only [if_pos hw, hi]

/-- Several consumers of an unordered iterator: while one waits, every item that is there has been announced to somebody. -/
theorem C176_unordered_partial (length : Nat) (steps : List IStep) :
    let it := irun false (Iter.new length) steps
    it.waiting ≠ [] → it.items.length ≤ it.woken.length := by
  intro it
  have h : Announced (Iter.new length) := fun hc => absurd rfl hc
  exact h.run steps

example :
    (∀ st ∈ [IStep.next 3, .result 1 11, .result 0 10, .wake 3, .next 3, .next 3], OnlyBy 3 st) ∧
    (irun true (Iter.new 2) [.next 3, .result 1 11, .result 0 10, .wake 3, .next 3, .next 3]).outs =
      [(3, .item 10), (3, .item 11), (3, .stopIteration)] := by
  constructor
  · intro st hst
    simp only [List.mem_cons, List.not_mem_nil, or_false] at hst
    rcases hst with rfl | rfl | rfl | rfl | rfl | rfl <;> first | trivial | rfl
  · decide

end Machin.PoolLife
