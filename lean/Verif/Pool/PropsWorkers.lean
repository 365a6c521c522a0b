import Verif.Pool.WorkersLemmas

/-! # Properties of the pool classes: C32–C34, C67, C68 -/

namespace Machin.Pool

open Spec

variable {β ε : Type}

/-! ### C32: callbacks -/

/-- The callbacks that are due for an outcome: the callback with the value of a success, the error callback with the
exception of a failure, once, as far as given. -/
def dueCalls (cb ecb : Bool) : Obj β ε → List (Call β ε)
  | .ok l => if cb then [.callback (l.map some)] else []
  | .error e => if ecb then [.errorCallback e] else []

/-- The whole property: on every pool class, after the result of an `apply_async` call has been delivered, exactly the due
callbacks have been called, whatever else happens in the pool. -/
def C32_full : Prop :=
  ∀ (c : Cls) (cb ecb : Bool) (pre post : List (Event Nat Nat)) (chunk : Nat) (obj : Obj Nat Nat) (rest : List (Nat × Obj Nat Nat)),
    deliveries (submits pre).length post = (chunk, obj) :: rest →
    ∃ r, (Pool.run (pre ++ .submit (c.applyAsync cb ecb) :: post)).handle? (submits pre).length = some (.async r) ∧
      r.calls = dueCalls cb ecb obj

/-- It holds for `BasePool`. -/
theorem C32_base_partial (cb ecb : Bool) (pre post : List (Event β ε)) (chunk : Nat) (obj : Obj β ε)
    (rest : List (Nat × Obj β ε)) (hd : deliveries (submits pre).length post = (chunk, obj) :: rest) :
    ∃ r, (Pool.run (pre ++ .submit (Cls.base.applyAsync cb ecb) :: post)).handle? (submits pre).length = some (.async r) ∧
      r.value = some obj ∧ r.ready = true ∧ r.calls = dueCalls cb ecb obj := by
  have h := route pre (Cls.base.applyAsync cb ecb) post
  rw [hd] at h
  simp only [Cls.applyAsync, Submit.handle, receive, if_true, Handle.set, Bool.not_true, receive_false, Bool.false_eq_true,
    if_false, Prod.mk.injEq] at h
  refine ⟨_, by unfold Pool.handle?; simp only [Cls.applyAsync]; rw [h.1, h.2]; rfl, rfl, rfl, ?_⟩
  cases obj <;> rfl

/-- For every pool class the handle of an `apply_async` call is ready exactly if a result of the job was delivered, and holds the first one. -/
theorem C31_ready (c : Cls) (cb ecb : Bool) (pre post : List (Event β ε)) :
    ∃ r, (Pool.run (pre ++ .submit (c.applyAsync cb ecb) :: post)).handle? (submits pre).length = some (.async r) ∧
      (r.ready = true ↔ deliveries (submits pre).length post ≠ []) ∧
      r.value = (deliveries (submits pre).length post).head?.map (·.2) ∧
      (deliveries (submits pre).length post = [] → r.calls = []) := by
  have ha : ∃ cb' ecb', c.applyAsync cb ecb = .apply cb' ecb' := by cases c <;> exact ⟨_, _, rfl⟩
  obtain ⟨cb', ecb', e⟩ := ha
  have h := route pre (c.applyAsync cb ecb) post
  rw [e] at h ⊢
  cases hd : deliveries (submits pre).length post with
  | nil =>
    rw [hd] at h
    simp only [Submit.handle, receive, if_true, Prod.mk.injEq] at h
    exact ⟨AsyncRes.new cb' ecb', by unfold Pool.handle?; rw [h.1]; rfl, by simp [AsyncRes.new], rfl, fun _ => rfl⟩
  | cons d ds =>
    rw [hd] at h
    simp only [Submit.handle, receive, if_true, Handle.set, Bool.not_true, receive_false, Bool.false_eq_true, if_false,
      Prod.mk.injEq] at h
    exact ⟨(AsyncRes.new cb' ecb').set d.1 d.2, by unfold Pool.handle?; rw [h.1, h.2]; rfl, by simp [AsyncRes.set], rfl, by simp⟩

/-- It is false for the pools users create: `Pool.apply_async` drops both callbacks. -/
theorem C32_violated : ¬ C32_full := by
  intro h
  rcases h .pool true true [] [.deliver 0 0 (.ok [7])] 0 (.ok [7]) [] rfl with ⟨r, hr, hc⟩
  have h2 : (Pool.run ([] ++ .submit (Cls.pool.applyAsync true true) :: [.deliver 0 0 (.ok [7])])).handle? 0 =
      some (.async (⟨false, false, some (.ok [7]), true, []⟩ : AsyncRes Nat Nat)) := by decide
  rw [show (submits ([] : List (Event Nat Nat))).length = 0 from rfl, h2] at hr
  cases hr
  simp [dueCalls] at hc

/-- No callback is ever called for an `apply_async` call on any class but `BasePool`. -/
theorem C32_violated_never (c : Cls) (hc : c ≠ .base) (cb ecb : Bool) (pre post : List (Event β ε)) :
    ∃ r, (Pool.run (pre ++ .submit (c.applyAsync cb ecb) :: post)).handle? (submits pre).length = some (.async r) ∧
      r.calls = [] := by
  have hs : c.applyAsync cb ecb = .apply false false := by
    cases c
    · exact absurd rfl hc
    all_goals rfl
  rw [hs]
  have h := route pre (.apply false false) post
  cases hd : deliveries (submits pre).length post with
  | nil =>
    rw [hd] at h
    simp only [Submit.handle, receive, if_true, Prod.mk.injEq] at h
    exact ⟨_, by unfold Pool.handle?; rw [h.1]; rfl, rfl⟩
  | cons d ds =>
    rw [hd] at h
    simp only [Submit.handle, receive, if_true, Handle.set, Bool.not_true, receive_false, Bool.false_eq_true,
      if_false, Prod.mk.injEq] at h
    refine ⟨_, by unfold Pool.handle?; rw [h.1, h.2]; rfl, ?_⟩
    rcases d with ⟨_, o | o⟩ <;> rfl

/-- `map_async` with at least one task calls the due callback exactly once, when the last chunk arrives. -/
theorem C32_map (out : Nat → Obj β ε) (c n : Nat) (hc : 1 ≤ c) (hn : 1 ≤ n) (cb ecb : Bool) (ds : List Nat)
    (hnd : ds.Nodup) (hb : ∀ i ∈ ds, i < numChunks n c) :
    let r := deliverMap out (MapRes.new c n cb ecb) ds
    r.calls = if ds.length = numChunks n c then
      (match r.value with
       | .ok v => if cb then [.callback v] else []
       | .error e => if ecb then [.errorCallback e] else []) else [] := by
  intro r
  have key : ∀ es : List Nat, es.Nodup → (∀ i ∈ es, i < numChunks n c) →
      (deliverMap out (MapRes.new c n cb ecb) es).hasCallback = cb ∧
      (deliverMap out (MapRes.new c n cb ecb) es).hasErrorCallback = ecb ∧
      (deliverMap out (MapRes.new c n cb ecb) es).left = (numChunks n c : Int) - es.length ∧
      (deliverMap out (MapRes.new c n cb ecb) es).calls =
        if es.length = numChunks n c then mapCalls (deliverMap out (MapRes.new c n cb ecb) es) else [] := by
    intro es
    induction es using List.reverseRecOn with
    | nil =>
      intro _ _
      have hpos : 0 < numChunks n c := (lt_numChunks n c 0 hc).mpr (by omega)
      simp only [deliverMap, List.foldl_nil, MapRes.new, if_neg (show ¬ c = 0 by omega), numChunks_eq n c hc]
      refine ⟨trivial, trivial, by simp, ?_⟩
      rw [if_neg (by simp only [List.length_nil]; omega)]
    | append_singleton es i ih =>
      intro hnd hb
      have hle := nodup_lt_length hnd _ hb
      rw [List.length_append, List.length_singleton] at hle
      have ih := ih (List.nodup_append.mp hnd).1 (fun j hj => hb j (by simp [hj]))
      have e : deliverMap out (MapRes.new c n cb ecb) (es ++ [i]) =
          (deliverMap out (MapRes.new c n cb ecb) es).set i (out i) := by simp [deliverMap]
      rw [e]
      generalize deliverMap out (MapRes.new c n cb ecb) es = q at *
      have hf := map_set_flags q i (out i)
      have hcalls := map_set_calls q i (out i)
      refine ⟨by rw [hf.1, ih.1], by rw [hf.2, ih.2.1], by rw [map_set_left, ih.2.2.1]; simp; omega, ?_⟩
      have hold : q.calls = [] := by rw [ih.2.2.2, if_neg (by omega)]
      by_cases hz : q.left - 1 = 0
      · rw [if_pos (by simp only [List.length_append, List.length_singleton]; rw [ih.2.2.1] at hz; omega),
          (hcalls.1 hz).2, hold]
        rfl
      · rw [if_neg (by simp only [List.length_append, List.length_singleton]; rw [ih.2.2.1] at hz; omega),
          (hcalls.2 hz).2, hold]
  have h := key ds hnd hb
  show (deliverMap out (MapRes.new c n cb ecb) ds).calls = _
  rw [h.2.2.2]
  by_cases hl : ds.length = numChunks n c
  · rw [if_pos hl, if_pos hl]
    unfold mapCalls
    rw [h.1, h.2.1]
    rfl
  · rw [if_neg hl, if_neg hl]

/-- Three chunks; the callback gets the complete list. -/
example : (deliverMap (fun i => (.ok [i] : Obj Nat Nat)) (MapRes.new 1 3 true true) [2, 0, 1]).calls =
    [.callback [some 0, some 1, some 2]] := by decide

/-- So also for `map_async` of every class, with the callbacks the caller gave: once all chunks have arrived exactly the callback due
has been called. -/
theorem C32_map_async (cls : Cls) (out : Nat → Obj β ε) (workers n : Nat) (chunksize : Option Nat) (hn : 1 ≤ n) (cb ecb : Bool)
    (hw : 0 < workers) (hcs : ∀ c, chunksize = some c → 1 ≤ c) (ds : List Nat) (hnd : ds.Nodup)
    (hb : ∀ i ∈ ds, i < numChunks n (mapChunksize workers n chunksize))
    (hall : ds.length = numChunks n (mapChunksize workers n chunksize)) :
    ∃ r, (cls.mapAsync workers n chunksize cb ecb).handle (β := β) (ε := ε) = (.map r, true) ∧
      (deliverMap out r ds).calls = match (deliverMap out r ds).value with
        | .ok v => if cb then [.callback v] else []
        | .error e => if ecb then [.errorCallback e] else [] := by
  have hc := mapChunksize_pos workers n hw hn chunksize hcs
  have h := C32_map out (mapChunksize workers n chunksize) n hc hn cb ecb ds hnd hb
  dsimp only at h
  rw [if_pos hall] at h
  refine ⟨MapRes.new (mapChunksize workers n chunksize) n cb ecb, ?_, h⟩
  unfold Cls.mapAsync Submit.handle
  generalize mapChunksize workers n chunksize = c at hc
  simp [MapRes.new, show c ≠ 0 by omega]

/-- `map_async` of an empty input never calls its callback, though its result is ready. -/
theorem C32_violated_empty_map (cls : Cls) (workers : Nat) (chunksize : Option Nat) (pre post : List (Event β ε)) :
    ∃ r, (Pool.run (pre ++ .submit (cls.mapAsync workers 0 chunksize true true) :: post)).handle? (submits pre).length =
      some (.map r) ∧ r.ready = true ∧ r.calls = [] := by
  have h := route pre (cls.mapAsync workers 0 chunksize true true) post
  have e : (cls.mapAsync workers 0 chunksize true true).handle (β := β) (ε := ε) =
      (.map ⟨0, 0, .ok [], true, true, true, []⟩, false) := rfl
  rw [e, receive_false] at h
  simp only [Bool.false_eq_true, if_false, Prod.mk.injEq] at h
  exact ⟨_, by unfold Pool.handle?; rw [h.1, h.2]; rfl, rfl, rfl⟩

/-! ### C33: contexts of `CtxPool` -/

/-- At any time the context numbers of the workers are pairwise different and below the number of processes; after every
maintenance there is exactly one live worker for each context. `order` is the iteration order of Python's set. -/
theorem C33_contexts (order : List Nat → List Nat) (ho : ∀ l, (order l).Perm l) (n : Nat) (evs : List WEv) :
    ((wRun (repopulateIds order n) evs).map (·.id)).Nodup ∧
    (∀ w ∈ wRun (repopulateIds order n) evs, w.id < n) ∧
    ((wRun (repopulateIds order n) (evs ++ [.maintain])).map (·.id)).Perm (List.range n) ∧
    (∀ w ∈ wRun (repopulateIds order n) (evs ++ [.maintain]), w.exited = false) := by
  have h := idsOk_run order ho n evs
  refine ⟨h.1, fun w hw => h.2 _ (List.mem_map.mpr ⟨w, hw, rfl⟩), ?_, ?_⟩
  · unfold wRun at h ⊢
    rw [List.foldl_append]
    exact repopulateIds_spec order ho n _ h.reap
  · unfold wRun
    rw [List.foldl_append]
    exact repopulateIds_live order n _ (reap_live _)

example : wRun (repopulateIds id 3) [.exit 1, .exit 2, .maintain, .exit 0, .maintain] =
    [⟨1, false⟩, ⟨2, false⟩, ⟨0, false⟩] := by decide

/-! ### C34: sub-queues of `P2PPool` -/

/-- The whole property: after maintenance, the live workers read all sub-queues, each read by exactly one. -/
def C34_full : Prop :=
  ∀ (n : Nat) (evs : List WEv), ((wRun (repopulateP2P n) (evs ++ [.maintain])).map (·.id)).Perm (List.range n)

/-- It is false: the replacement of the worker of queue 2 reads queue 0. -/
theorem C34_violated : ¬ C34_full := by
  intro h
  have := h 3 [.exit 2]
  revert this
  decide

/-- The tasks put into queue 2 are then never taken, and queue 0 has two readers. -/
example : wRun (repopulateP2P 3) [.exit 2, .maintain] = [⟨0, false⟩, ⟨1, false⟩, ⟨0, false⟩] := by decide

/-- A new pool has one worker for each sub-queue. -/
theorem C34_initial_partial (n : Nat) : (wRun (repopulateP2P n) []).map (·.id) = List.range n := by
  simp [wRun, repopulateP2P, List.map_map, Function.comp_def]

/-- Exactly when maintenance is harmless: starting from one worker per sub-queue, it restores one worker per sub-queue if and
only if the exited workers are those of the first sub-queues. -/
theorem C34_maintain_partial (n : Nat) (ws : List Worker) (h : (ws.map (·.id)).Perm (List.range n)) :
    ((repopulateP2P n (reap ws)).map (·.id)).Perm (List.range n) ↔
      ((reap ws).map (·.id)).Perm (List.range' (n - (reap ws).length) (reap ws).length) := by
  have hsub := (reap_ids_sublist ws).length_le
  rw [List.length_map, List.length_map] at hsub
  have hlen := h.length_eq
  rw [List.length_map, List.length_range] at hlen
  have hsplit : List.range n = List.range (n - (reap ws).length) ++
      List.range' (n - (reap ws).length) (reap ws).length := by
    rw [List.range_eq_range', List.range_eq_range']
    have := List.range'_append (s := 0) (m := n - (reap ws).length) (n := (reap ws).length) (step := 1)
    simp only [Nat.one_mul, Nat.zero_add] at this
    rw [this]
    congr 1
    omega
  unfold repopulateP2P
  rw [List.map_append, List.map_map]
  have e : ((fun w : Worker => w.id) ∘ fun i => (⟨i, false⟩ : Worker)) = id := by funext i; rfl
  rw [e, List.map_id, hsplit]
  have hswap : ((reap ws).map (·.id) ++ List.range (n - (reap ws).length)).Perm
      (List.range (n - (reap ws).length) ++ (reap ws).map (·.id)) := List.perm_append_comm
  constructor
  · intro hp
    exact (List.perm_append_left_iff _).mp (hswap.symm.trans hp)
  · intro hp
    exact hswap.trans (hp.append_left _)

example : ((repopulateP2P 3 (reap [⟨0, true⟩, ⟨1, false⟩, ⟨2, false⟩])).map (·.id)).Perm (List.range 3) ∧
    ¬ ((repopulateP2P 3 (reap [⟨0, false⟩, ⟨1, true⟩, ⟨2, false⟩])).map (·.id)).Perm (List.range 3) := by decide

/-- Tasks are put into the sub-queues in turn: task `j` goes to the queue `(counter + j) % n`. So once a sub-queue has lost
its reader, every `n`-th task is lost. -/
theorem C34_round_robin (n : Nat) (k c j : Nat) (hc : c < n) (hj : j < k) :
    (quickPut n c k).1[j]? = some ((c + j) % n) := by
  induction k generalizing c j with
  | zero => omega
  | succ k ih =>
    unfold quickPut
    cases j with
    | zero => simp [Nat.mod_eq_of_lt hc]
    | succ j =>
      rw [List.getElem?_cons_succ, ih _ j (Nat.mod_lt _ (by omega)) (by omega), Nat.mod_add_mod]
      congr 2
      omega

example : (quickPut 3 0 7).1 = [0, 1, 2, 0, 1, 2, 0] := by decide

/-- The counter stays an index of a sub-queue, so the next call continues with the queue after the last one used. -/
theorem C34_counter (n k c : Nat) (hc : c < n) : (quickPut n c k).2 = (c + k) % n ∧ (quickPut n c k).2 < n := by
  have h : (quickPut n c k).2 = (c + k) % n := by
    induction k generalizing c with
    | zero => simp [quickPut, Nat.mod_eq_of_lt hc]
    | succ k ih =>
      unfold quickPut
      rw [ih _ (Nat.mod_lt _ (by omega)), Nat.mod_add_mod]
      congr 1
      omega
  exact ⟨h, by rw [h]; exact Nat.mod_lt _ (by omega)⟩

example : (quickPut 3 1 7).2 = 2 := by decide

/-! ### C67: `apply` calls the function with its arguments -/

/-- The arguments the function of the user is due: the context first, for the pools with contexts. -/
def dueArgs (c : Cls) (args : List Val) : List Val :=
  match c with
  | .ctx | .ctxThread => .ctx :: args
  | _ => args

/-- The whole property: `apply`, `apply_async` and `map` call the function of the user with the arguments given. -/
def C67_full : Prop :=
  ∀ (c : Cls) (args : List Val),
    runTask (c.applyTask .user args) = .ok (dueArgs c args) ∧
    runTask (c.asyncTask .user args) = .ok (dueArgs c args) ∧
    runTask (c.mapTask .user args) = .ok (dueArgs c args)

/-- `CtxPool.apply` always raises `ValueError` in the worker, whatever the function and the arguments: the call is wrapped
twice and the context becomes an argument of the second `proxy_ctx_caller`. -/
theorem C67_violated_ctx (f : Fn) (args : List Val) : runTask (Cls.ctx.applyTask f args) = .error .value := rfl

theorem C67_violated : ¬ C67_full := by
  intro h
  have := (h .ctx []).1
  rw [C67_violated_ctx] at this
  cases this

/-- It holds for every other class, and for `apply_async` and `map` of `CtxPool`. -/
theorem C67_calls_partial (c : Cls) (args : List Val) :
    (c ≠ .ctx → runTask (c.applyTask .user args) = .ok (dueArgs c args)) ∧
    runTask (c.asyncTask .user args) = .ok (dueArgs c args) ∧
    runTask (c.mapTask .user args) = .ok (dueArgs c args) := by
  cases c <;> refine ⟨?_, ?_, ?_⟩
  all_goals first | rfl | exact fun _ => rfl | exact fun h => absurd rfl h

example : runTask (Cls.ctxThread.applyTask .user [.atom 1, .atom 2]) = .ok [.ctx, .atom 1, .atom 2] := rfl

/-! ### C68: exceptions of tasks -/

/-- The whole property: a failed call raises the exception of the task at `get()`, on every pool class. -/
def C68_full : Prop := ∀ (c : Cls) (e : Err), raiseValue (c.transport e) = e

/-- It is false for the thread pools: the stored value is a wrapper that is not an exception, so `get()` raises `TypeError`
instead. -/
theorem C68_violated : ¬ C68_full := by
  intro h
  have := h .thread .value
  revert this
  decide

theorem C68_violated_threads (e : Err) :
    raiseValue (Cls.thread.transport e) = .type ∧ raiseValue (Cls.ctxThread.transport e) = .type := ⟨rfl, rfl⟩

/-- It holds for the process pools; there the error callback gets the exception too. -/
theorem C68_process_partial (c : Cls) (h1 : c ≠ .thread) (h2 : c ≠ .ctxThread) (e : Err) :
    c.transport e = .exc e ∧ raiseValue (c.transport e) = e := by
  cases c
  case thread => exact absurd rfl h1
  case ctxThread => exact absurd rfl h2
  all_goals exact ⟨rfl, rfl⟩

example : raiseValue (Cls.p2p.transport .key) = .key := rfl

end Machin.Pool
