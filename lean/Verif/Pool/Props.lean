import Verif.Pool.RouteLemmas

/-! # Properties of the result side of the pools: C28–C31 -/

namespace Machin.Pool

open Spec

variable {α β ε : Type}

/-! ### C28: order of the results of `map` -/

/-- The chunks are the input, cut in pieces of the chunk size, in order: nothing is lost, repeated or reordered. -/
theorem C28_split (c : Nat) (hc : 1 ≤ c) (xs : List α) :
    (splitTasks c xs).flatten = xs ∧ ∀ t ∈ splitTasks c xs, 1 ≤ t.length ∧ t.length ≤ c := by
  have key : ∀ fuel (ys : List α), ys.length < fuel → (splitLoop c fuel ys).flatten = ys ∧
      ∀ t ∈ splitLoop c fuel ys, 1 ≤ t.length ∧ t.length ≤ c := by
    intro fuel
    induction fuel with
    | zero => intro ys h; omega
    | succ fuel ih =>
      intro ys h
      unfold splitLoop
      by_cases hn : ys.take c = []
      · rw [if_pos hn]
        have : ys = [] := by
          rcases List.take_eq_nil_iff.mp hn with q | q
          · omega
          · exact q
        subst this
        simp
      · rw [if_neg hn]
        have hpos : 1 ≤ ys.length := by
          rcases ys with _ | ⟨y, ys⟩
          · simp at hn
          · simp
        have ih := ih (ys.drop c) (by rw [List.length_drop]; omega)
        constructor
        · rw [List.flatten_cons, ih.1, List.take_append_drop]
        · intro t ht
          rcases List.mem_cons.mp ht with ht | ht
          · subst ht
            rw [List.length_take]
            omega
          · exact ih.2 t ht
  exact key _ xs (by omega)

example : splitTasks 2 [1, 2, 3, 4, 5] = [[1, 2], [3, 4], [5]] := by decide

/-- A chunk size that is given is used; otherwise it is the smallest one with at most four chunks per worker. -/
theorem C28_chunksize (workers n : Nat) (hw : 1 ≤ workers) (hn : 1 ≤ n) : (∀ k, mapChunksize workers n (some k) = k) ∧
    n ≤ mapChunksize workers n none * (4 * workers) ∧ (mapChunksize workers n none - 1) * (4 * workers) < n := by
  have h0 : n ≠ 0 := by omega
  refine ⟨fun k => by simp [mapChunksize, h0], ?_⟩
  have hd := Nat.div_add_mod n (workers * 4)
  have hm := Nat.mod_lt n (show 0 < workers * 4 by omega)
  simp only [mapChunksize, h0, if_false, Option.getD_none]
  rw [Nat.mul_comm 4 workers]
  generalize workers * 4 = c at *
  by_cases hr : n % c = 0
  · rw [if_neg (by simpa using hr), Nat.add_zero]
    have : n = n / c * c := by rw [Nat.mul_comm]; omega
    refine ⟨this.le, ?_⟩
    have hq : 1 ≤ n / c := by
      rcases Nat.eq_zero_or_pos (n / c) with h | h
      · rw [h] at this; omega
      · exact h
    obtain ⟨q, hq2⟩ := Nat.exists_eq_add_of_le hq
    rw [hq2] at this ⊢
    rw [Nat.add_sub_cancel_left]
    rw [Nat.add_mul] at this
    omega
  · rw [if_pos hr, Nat.add_sub_cancel]
    rw [Nat.add_mul, Nat.one_mul, Nat.mul_comm (n / c) c]
    omega

example : mapChunksize 2 20 none = 3 ∧ mapChunksize 2 16 none = 2 := by decide

/-- Whatever the order of delivery `ds`, as soon as all chunks have been delivered the value is the list of the results in
the order of the input, and the handle is ready; before, it is not ready. `f` succeeds with `g` on every input. -/
theorem C28_map_order (workers : Nat) (hw : 1 ≤ workers) (f : α → Except ε β) (g : α → β) (xs : List α) (hx : xs ≠ [])
    (hf : ∀ x ∈ xs, f x = .ok (g x)) (chunksize : Option Nat) (hcs : ∀ k, chunksize = some k → 1 ≤ k) (cb ecb : Bool)
    (ds : List Nat) (hnd : ds.Nodup)
    (hb : ∀ i ∈ ds, i < (splitTasks (mapChunksize workers xs.length chunksize) xs).length) :
    let c := mapChunksize workers xs.length chunksize
    let tasks := splitTasks c xs
    let r := deliverMap (fun i => mapCaller f (tasks.getD i [])) (MapRes.new c xs.length cb ecb) ds
    (r.ready = true ↔ ds.Perm (List.range tasks.length)) ∧
    (r.ready = true → r.value = .ok (xs.map (fun x => some (g x)))) := by
  have hn : 1 ≤ xs.length := List.length_pos_iff.mpr hx
  have hc := mapChunksize_pos workers xs.length hw hn chunksize hcs
  generalize mapChunksize workers xs.length chunksize = c at *
  intro c' tasks r
  have hlen := splitTasks_length c hc xs
  rw [hlen] at hb
  have hchunk : ∀ i < numChunks xs.length c, tasks.getD i [] = (xs.drop (i * c)).take c := by
    intro i hi
    simp only [tasks, c', splitTasks_eq c hc, List.getD_eq_getElem?_getD, List.getElem?_map]
    rw [List.getElem?_eq_getElem (by simpa using hi)]
    simp
  have hout : ∀ i < numChunks xs.length c,
      mapCaller f (tasks.getD i []) = .ok (((xs.drop (i * c)).take c).map g) := by
    intro i hi
    rw [hchunk i hi]
    exact mapCaller_ok f g _ (fun x hxm => hf x (List.mem_of_mem_drop (List.mem_of_mem_take hxm)))
  have inv := MapInv.deliver (fun i => mapCaller f (tasks.getD i [])) c xs.length hc hn cb ecb (by
    intro i hi l hl
    rw [hout i hi] at hl
    cases hl
    simp) ds hnd hb
  have hready : r.ready = true ↔ ds.Perm (List.range tasks.length) := by
    rw [inv.ready]
    constructor
    · intro h
      have := perm_range_of_length hnd _ hb h
      rw [show tasks.length = numChunks xs.length c from hlen]
      exact this
    · intro h
      have := h.length_eq
      rw [List.length_range] at this
      rw [this]; exact hlen
  refine ⟨hready, ?_⟩
  intro hr
  have hp := hready.mp hr
  rw [show tasks.length = numChunks xs.length c from hlen] at hp
  have hnone : firstError (fun i => mapCaller f (tasks.getD i [])) ds = none := by
    rw [firstError_none]
    intro i hi
    exact ⟨_, hout i (hb i hi)⟩
  have hv := inv.value
  rw [hnone] at hv
  show (deliverMap _ _ ds).value = _
  rw [hv]
  dsimp only
  rw [filled_all _ c _ hc ds hp]
  congr 1
  apply List.ext_getElem
  · simp
  · intro j h1 h2
    simp only [List.length_map, List.length_range] at h1
    simp only [List.getElem_map, List.getElem_range]
    unfold elem
    have hd := div_lt_numChunks xs.length c j hc h1
    dsimp only
    rw [hout _ hd]
    dsimp only
    rw [List.getElem?_map, List.getElem?_take, if_pos (Nat.mod_lt j (by omega)), List.getElem?_drop]
    have e : j / c * c + j % c = j := by rw [Nat.mul_comm]; exact Nat.div_add_mod j c
    rw [e, List.getElem?_eq_getElem h1]
    rfl

/-- Seven inputs in chunks of two, delivered out of order. -/
example : let xs := [10, 20, 30, 40, 50, 60, 70]
    let tasks := splitTasks 2 xs
    let r : MapRes Nat Nat := deliverMap (fun i => mapCaller (fun x => .ok (x + 1)) (tasks.getD i [])) (MapRes.new 2 7 false false)
      [3, 0, 2, 1]
    r.ready = true ∧ r.value = .ok [some 11, some 21, some 31, some 41, some 51, some 61, some 71] := by
  decide

/-- An empty input: ready at once with the empty list. -/
theorem C28_empty (workers : Nat) (chunksize : Option Nat) (cb ecb : Bool) :
    (MapRes.new (β := β) (ε := ε) (mapChunksize workers 0 chunksize) 0 cb ecb).ready = true ∧
    (MapRes.new (β := β) (ε := ε) (mapChunksize workers 0 chunksize) 0 cb ecb).value = .ok [] ∧
    splitTasks (mapChunksize workers 0 chunksize) ([] : List α) = [] := by
  simp [mapChunksize, MapRes.new, splitTasks, splitLoop]

/-- With an explicit chunk size of 0 (outside of the property) the result of a non-empty input is ready at once, and is a
list of `None`: no task runs. -/
theorem C28_zero_chunksize (workers : Nat) (xs : List α) (cb ecb : Bool) :
    splitTasks (mapChunksize workers xs.length (some 0)) xs = [] ∧
    (MapRes.new (β := β) (ε := ε) (mapChunksize workers xs.length (some 0)) xs.length cb ecb).ready = true ∧
    (MapRes.new (β := β) (ε := ε) (mapChunksize workers xs.length (some 0)) xs.length cb ecb).value =
      .ok (List.replicate xs.length none) := by
  have h : mapChunksize workers xs.length (some 0) = 0 := by unfold mapChunksize; split <;> rfl
  rw [h, splitTasks_zero]
  simp [MapRes.new]

/-! ### C29: failures of `map` -/

/-- At every moment of every delivery order: ready exactly when all chunks were delivered; once ready, the value is the
exception of the first failing chunk delivered if there is one, and the results otherwise. -/
theorem C29_failure (out : Nat → Obj β ε) (c n : Nat) (hc : 1 ≤ c) (hn : 1 ≤ n) (cb ecb : Bool)
    (hlen : ∀ i < numChunks n c, ∀ l, out i = .ok l → l.length = min c (n - i * c)) (ds : List Nat) (hnd : ds.Nodup)
    (hb : ∀ i ∈ ds, i < numChunks n c) :
    ((deliverMap out (MapRes.new c n cb ecb) ds).ready = true ↔ ds.Perm (List.range (numChunks n c))) ∧
    (∀ e, (deliverMap out (MapRes.new c n cb ecb) ds).value = .error e ↔ firstError out ds = some e) ∧
    ((∀ i ∈ ds, ∃ l, out i = .ok l) ↔ ∃ v, (deliverMap out (MapRes.new c n cb ecb) ds).value = .ok v) := by
  have inv := MapInv.deliver out c n hc hn cb ecb hlen ds hnd hb
  refine ⟨?_, ?_, ?_⟩
  · rw [inv.ready]
    constructor
    · exact perm_range_of_length hnd _ hb
    · intro h
      have := h.length_eq
      rwa [List.length_range] at this
  · intro e
    rw [inv.value]
    cases firstError out ds with
    | none => simp
    | some e' => simp
  · rw [inv.value, ← firstError_none]
    cases firstError out ds with
    | none => simp
    | some e' => simp

/-- The first failing chunk in delivery order: everything delivered before it succeeded. -/
theorem C29_first (out : Nat → Obj β ε) (ds : List Nat) (e : ε) :
    firstError out ds = some e ↔ ∃ a i b, ds = a ++ i :: b ∧ (∀ j ∈ a, ∃ l, out j = .ok l) ∧ out i = .error e := by
  induction ds with
  | nil => simp [firstError]
  | cons d ds ih =>
    simp only [firstError]
    cases h : out d with
    | error e' =>
      constructor
      · intro he
        cases he
        exact ⟨[], d, ds, rfl, by simp, h⟩
      · rintro ⟨a, i, b, hd, ha, hi⟩
        cases a with
        | nil =>
          simp only [List.nil_append, List.cons.injEq] at hd
          rw [← hd.1, h] at hi
          cases hi; rfl
        | cons x a =>
          simp only [List.cons_append, List.cons.injEq] at hd
          rcases ha x (by simp) with ⟨l, hl⟩
          rw [← hd.1, h] at hl
          cases hl
    | ok l =>
      dsimp only
      rw [ih]
      constructor
      · rintro ⟨a, i, b, hd, ha, hi⟩
        refine ⟨d :: a, i, b, by rw [hd]; rfl, ?_, hi⟩
        intro j hj
        rcases List.mem_cons.mp hj with hj | hj
        · exact ⟨l, by rw [hj, h]⟩
        · exact ha j hj
      · rintro ⟨a, i, b, hd, ha, hi⟩
        cases a with
        | nil =>
          simp only [List.nil_append, List.cons.injEq] at hd
          rw [← hd.1, h] at hi
          cases hi
        | cons x a =>
          simp only [List.cons_append, List.cons.injEq] at hd
          exact ⟨a, i, b, hd.2, fun j hj => ha j (by simp [hj]), hi⟩

/-- A chunk fails with the exception of one of its own elements, and only if one of them fails. -/
theorem C29_chunk (f : α → Except ε β) (xs : List α) :
    (∀ e, mapCaller f xs = .error e → ∃ x ∈ xs, f x = .error e) ∧
    ((∃ x ∈ xs, ∃ e, f x = .error e) → ∃ e, mapCaller f xs = .error e) := by
  refine ⟨fun e h => mapCaller_error f xs e h, ?_⟩
  rintro ⟨x, hx, e, he⟩
  induction xs with
  | nil => simp at hx
  | cons y ys ih =>
    simp only [mapCaller]
    cases hy : f y with
    | error e' => exact ⟨e', rfl⟩
    | ok z =>
      have hx' : x ∈ ys := by
        rcases List.mem_cons.mp hx with q | q
        · rw [← q, he] at hy; cases hy
        · exact q
      rcases ih hx' with ⟨e', h'⟩
      exact ⟨e', by rw [h']⟩

/-- Chunks 2 and 0 fail; chunk 2 is delivered first. -/
example : let out : Nat → Obj Nat Nat := fun i => if i = 1 then .ok [7, 8] else .error (100 + i)
    (deliverMap out (MapRes.new 2 6 false false) [2, 1, 0]).value = .error 102 ∧
    (deliverMap out (MapRes.new 2 6 false false) [2, 1]).ready = false ∧
    (deliverMap out (MapRes.new 2 6 false false) [2, 1, 0]).ready = true := by
  decide

/-- A handle that is complete never changes again, whatever is delivered later. -/
theorem C29_final (pre : List (Event β ε)) (s : Submit) (post more : List (Event β ε))
    (hdone : (receive (β := β) s.handle (deliveries (submits pre).length post)).2 = false) :
    (Pool.run (pre ++ .submit s :: (post ++ more))).handle? (submits pre).length =
      (Pool.run (pre ++ .submit s :: post)).handle? (submits pre).length := by
  have h1 := route pre s post
  have h2 := route pre s (post ++ more)
  rw [deliveries_append, receive_append] at h2
  generalize receive s.handle (deliveries (submits pre).length post) = r at *
  rcases r with ⟨h, b⟩
  simp only at hdone
  subst hdone
  rw [receive_false] at h2
  simp only [Bool.false_eq_true, if_false, Prod.mk.injEq] at h1 h2
  unfold Pool.handle?
  rw [h1.1, h1.2, h2.1, h2.2]

/-! ### C30: `imap` -/

/-- At any time, what the iterator yielded is the beginning of the results in input order. -/
theorem C30_prefix (out : Nat → Obj β ε) (n : Nat) (evs : List IEv) (hnd : (delivered evs).Nodup)
    (hb : ∀ i ∈ delivered evs, i < n) :
    (iRun true out n evs).2 <+: (List.range n).map out := by
  have h := (iInv_run out n evs hnd).1
  have hidx : (iRun true out n evs).1.index ≤ n := by
    by_contra hc
    have := hb n (h.below n (by omega))
    omega
  have h1 : (iRun true out n evs).2 <+: (List.range (iRun true out n evs).1.index).map out := ⟨_, h.seq⟩
  refine h1.trans ?_
  refine List.IsPrefix.map out ?_
  rw [List.prefix_iff_eq_take, List.length_range, List.take_range, Nat.min_eq_left hidx]

/-- `next` raises `StopIteration` exactly when all results have been yielded. -/
theorem C30_stop (out : Nat → Obj β ε) (n : Nat) (evs : List IEv) (hnd : (delivered evs).Nodup)
    (hb : ∀ i ∈ delivered evs, i < n) :
    (iRun true out n evs).1.next.2 = .stop ↔ (iRun true out n evs).2 = (List.range n).map out := by
  have h := (iInv_run out n evs hnd).1
  have hidx : (iRun true out n evs).1.index ≤ n := by
    by_contra hc
    have := hb n (h.below n (by omega))
    omega
  generalize iRun true out n evs = s at *
  rcases s with ⟨it, ys⟩
  have hs := h.seq
  have hl := h.len
  simp only at hs hl hidx ⊢
  unfold IMap.next
  rcases hi : it.items with _ | ⟨o, items⟩
  · rw [hi, List.append_nil] at hs
    dsimp only
    by_cases hx : it.index = it.length
    · rw [if_pos hx]
      simp only [true_iff]
      rw [hs, hx, hl]
    · rw [if_neg hx]
      simp only [reduceCtorEq, false_iff]
      intro hc
      rw [hs] at hc
      have := congrArg List.length hc
      simp at this
      omega
  · simp only [reduceCtorEq, false_iff]
    intro hc
    have := congrArg List.length hs
    rw [hi] at this
    rw [hc] at this
    simp at this
    omega

/-- When everything has been delivered, `next` does not wait: it yields a result or stops. Before, it waits exactly when the
next result in order is missing. -/
theorem C30_wait (out : Nat → Obj β ε) (n : Nat) (evs : List IEv) (hnd : (delivered evs).Nodup)
    (hb : ∀ i ∈ delivered evs, i < n) :
    (iRun true out n evs).1.next.2 = .wait ↔
      (iRun true out n evs).2.length < n ∧ (iRun true out n evs).2.length ∉ delivered evs := by
  have h := iInv_run out n evs hnd
  have hidx : (iRun true out n evs).1.index ≤ n := by
    by_contra hc
    have := hb n (h.1.below n (by omega))
    omega
  generalize iRun true out n evs = s at *
  rcases s with ⟨it, ys⟩
  have hs := congrArg List.length h.1.seq
  have hl := h.1.len
  simp only [List.length_append, List.length_map, List.length_range] at hs hl hidx ⊢
  unfold IMap.next
  rcases hi : it.items with _ | ⟨o, items⟩
  · rw [hi, List.length_nil, Nat.add_zero] at hs
    dsimp only
    by_cases hx : it.index = it.length
    · rw [if_pos hx]
      simp only [reduceCtorEq, false_iff, not_and]
      omega
    · rw [if_neg hx]
      simp only [true_iff]
      rw [hs]
      exact ⟨by omega, h.2⟩
  · simp only [reduceCtorEq, false_iff, not_and, not_not]
    intro _
    apply h.1.below
    rw [hi, List.length_cons] at hs
    simp only
    omega

/-- A delivery that wakes the consumer leaves it something to take: a woken `next` does not time out. -/
theorem C30_wake (out : Nat → Obj β ε) (n : Nat) (evs : List IEv) (i : Nat) (hnd : (delivered (evs ++ [.deliver i])).Nodup)
    (hw : ((iRun true out n evs).1.set i (out i)).2 = true) :
    ∃ o, (iRun true out n (evs ++ [.deliver i])).1.next.2 = .item o := by
  rw [delivered_append] at hnd
  have hd := List.nodup_append.mp hnd
  have h := iInv_run out n evs hd.1
  have hi : i ∉ delivered evs := fun hm => hd.2.2 i hm i (by simp [delivered]) rfl
  have key := (IInv.set out n _ _ _ h.1 h.2 i hi).2.2 hw
  rw [iRun_append]
  simp only [iStep, if_true]
  unfold IMap.next
  rcases hit : ((iRun true out n evs).1.set i (out i)).1.items with _ | ⟨o, items⟩
  · exact absurd hit key
  · exact ⟨o, rfl⟩

/-- Conversely the delivery of the result the consumer waits for always wakes it. -/
theorem C30_wakes (out : Nat → Obj β ε) (n : Nat) (evs : List IEv) (hnd : (delivered evs).Nodup)
    (hw : (iRun true out n evs).1.next.2 = .wait) :
    ((iRun true out n evs).1.set (iRun true out n evs).2.length (out (iRun true out n evs).2.length)).2 = true := by
  have h := iInv_run out n evs hnd
  generalize iRun true out n evs = s at *
  rcases s with ⟨it, ys⟩
  have hs := congrArg List.length h.1.seq
  simp only [List.length_append, List.length_map, List.length_range] at hs ⊢
  unfold IMap.next at hw
  rcases hi : it.items with _ | ⟨o, items⟩
  · rw [hi, List.length_nil, Nat.add_zero] at hs
    unfold IMap.set
    rw [if_pos hs.symm]
  · simp only [hi] at hw
    cases hw

/-- `imap_unordered`: yielded and waiting items together are the results in delivery order, each exactly once. -/
theorem C30_unordered (out : Nat → Obj β ε) (n : Nat) (evs : List IEv) :
    (iRun false out n evs).2 <+: (delivered evs).map out ∧
    ((iRun false out n evs).1.next.2 = .stop ↔
      (delivered evs).length = n ∧ (iRun false out n evs).2 = (delivered evs).map out) ∧
    ((iRun false out n evs).1.next.2 = .wait ↔
      (delivered evs).length ≠ n ∧ (iRun false out n evs).2 = (delivered evs).map out) := by
  have h := uInv_run out n evs
  generalize iRun false out n evs = s at *
  rcases s with ⟨it, ys⟩
  have hs := h.seq
  have hi := h.index
  have hl := h.len
  simp only at hs hi hl ⊢
  refine ⟨⟨_, hs⟩, ?_⟩
  unfold IMap.next
  rcases hit : it.items with _ | ⟨o, items⟩
  · rw [hit, List.append_nil] at hs
    dsimp only
    by_cases hx : it.index = it.length
    · rw [if_pos hx]
      have : (delivered evs).length = n := by omega
      simp [this, hs]
    · rw [if_neg hx]
      have : ¬ (delivered evs).length = n := by omega
      simp [this, hs]
  · have hne : ys ≠ (delivered evs).map out := by
      intro hc
      rw [hit, hc] at hs
      have := congrArg List.length hs
      simp at this
    simp [hne]

/-- Four tasks, deliveries 2, 0, 3, 1 with calls of `next` in between. -/
example : let out : Nat → Obj Nat Nat := fun i => .ok [i]
    let evs := [.deliver 2, .next, .deliver 0, .next, .deliver 3, .next, .deliver 1, .next, .next]
    (iRun true out 4 evs).2 = [.ok [0], .ok [1], .ok [2]] ∧ (iRun true out 4 evs).1.next.2 = .item (.ok [3]) ∧
    (iRun false out 4 evs).2 = [.ok [2], .ok [0], .ok [3], .ok [1]] ∧ (iRun false out 4 evs).1.next.2 = .stop := by
  decide

/-- The flattening of `imap` with a chunk size above 1 (pool.py:574): the concatenation of the chunk results is the list of
the results of the elements, in order. -/
theorem C30_chunked (f : α → Except ε β) (g : α → β) (c : Nat) (hc : 1 ≤ c) (xs : List α)
    (hf : ∀ x ∈ xs, f x = .ok (g x)) :
    ∀ rs : List (List β), (splitTasks c xs).map (mapCaller f) = rs.map Except.ok → rs.flatten = xs.map g := by
  intro rs hrs
  have hsp := C28_split c hc xs
  have hmem : ∀ t ∈ splitTasks c xs, mapCaller f t = .ok (t.map g) := by
    intro t ht
    apply mapCaller_ok
    intro x hx
    apply hf
    rw [← hsp.1]
    exact List.mem_flatten.mpr ⟨t, ht, hx⟩
  have e : rs = (splitTasks c xs).map (List.map g) := by
    have h1 : (splitTasks c xs).map (mapCaller f) = ((splitTasks c xs).map (List.map g)).map Except.ok := by
      rw [List.map_map]
      exact List.map_congr_left hmem
    rw [h1] at hrs
    have hinj : Function.Injective (Except.ok : List β → Except ε (List β)) := fun a b h => by cases h; rfl
    exact ((List.map_injective_iff.mpr hinj) hrs).symm
  rw [e, ← List.map_flatten, hsp.1]

example : splitTasks 2 [1, 2, 3] = [[1, 2], [3]] ∧
    (splitTasks 2 [1, 2, 3]).map (mapCaller (fun x : Nat => (.ok (x * 2) : Except Nat Nat))) = [[2, 4], [6]].map Except.ok := by
  decide

/-! ### C31: routing of results -/

/-- For any history, the handle of a job is in the state its own deliveries lead to: results of other jobs do not reach it,
and results that arrive after completion are dropped. The job is registered as long as it is not complete. -/
theorem C31_routing (pre : List (Event β ε)) (s : Submit) (post : List (Event β ε)) :
    let job := (submits pre).length
    let p := Pool.run (pre ++ .submit s :: post)
    let r := receive s.handle (deliveries job post)
    p.handle? job = some r.1 ∧ ((p.cache.get? job).isSome ↔ r.2 = true) := by
  intro job p r
  have h := route pre s post
  change _ = if r.2 then (some r.1, none) else (none, some r.1) at h
  change (p.cache.get? job, p.done.get? job) = _ at h
  unfold Pool.handle?
  by_cases hr : r.2 = true
  · rw [if_pos hr, Prod.mk.injEq] at h
    simp [h.1, hr]
  · rw [if_neg hr, Prod.mk.injEq] at h
    simp [h.1, h.2, hr]

/-- A job is complete exactly when the results of all its tasks were delivered (each task delivers once): no result of its
own is dropped, and it does not stay registered. -/
theorem C31_complete (s : Submit) (hs : 1 ≤ s.tasks) (ds : List (Nat × Obj β ε)) (hnd : (ds.map (·.1)).Nodup)
    (hb : ∀ i ∈ ds.map (·.1), i < s.tasks) : (receive s.handle ds).2 = false ↔ (ds.map (·.1)).Perm (List.range s.tasks) := by
  rw [receive_complete s hs ds hnd hb, decide_eq_false_iff_not]
  have hle := nodup_lt_length hnd _ hb
  rw [List.length_map] at hle
  constructor
  · intro h
    exact perm_range_of_length hnd _ hb (by rw [List.length_map]; omega)
  · intro h
    have := h.length_eq
    rw [List.length_map, List.length_range] at this
    omega

/-- The whole property: whenever the results of all tasks have been delivered, no job is registered and a closed pool can
finish. -/
def C31_full : Prop :=
  ∀ evs : List (Event Nat Nat),
    (∀ pre s post, evs = pre ++ .submit s :: post →
      ((deliveries (submits pre).length post).map (·.1)).Perm (List.range s.tasks)) →
    (Pool.run evs).canFinish = true

/-- It is false: `imap` of an empty input registers a job that is never removed, so a closed pool waits for ever. -/
theorem C31_violated : ¬ C31_full := by
  intro h
  have := h [.submit (.imap 0)] (by
    intro pre s post he
    rcases pre with _ | ⟨e, pre⟩
    · simp only [List.nil_append, List.cons.injEq, Event.submit.injEq] at he
      rw [← he.1, ← he.2]
      simp [deliveries, Submit.tasks]
    · simp at he)
  revert this
  decide

/-- It holds as long as no `imap` call has an empty input. -/
theorem C31_no_leftover_partial (evs : List (Event β ε))
    (hne : ∀ s ∈ submits evs, s ≠ .imap 0 ∧ s ≠ .imapUnordered 0)
    (hz : ∀ s ∈ submits evs, ∀ n c cb ecb, s = .map n c cb ecb → n = 0 → c = 0)
    (hall : ∀ pre s post, evs = pre ++ .submit s :: post →
      ((deliveries (submits pre).length post).map (·.1)).Perm (List.range s.tasks)) :
    (Pool.run evs).canFinish = true := by
  unfold Pool.canFinish
  rw [List.isEmpty_iff]
  apply cache_nil_of_get?
  intro job
  by_cases hj : (submits evs).length ≤ job
  · exact (unknown_run evs job hj).1
  · rcases exists_split evs job (by omega) with ⟨pre, s, post, he, hl⟩
    have hr := route pre s post
    have hp := hall pre s post he
    rw [← he, hl] at hr
    rw [hl] at hp
    have hmem : s ∈ submits evs := by rw [he, submits_append]; simp [submits]
    have hfalse : (receive (β := β) s.handle (deliveries job post)).2 = false := by
      by_cases ht : 1 ≤ s.tasks
      · exact (C31_complete s ht _ (hp.nodup_iff.mpr List.nodup_range)
          (fun i hi => List.mem_range.mp (hp.mem_iff.mp hi))).mpr hp
      · have h0 : s.tasks = 0 := by omega
        rw [h0] at hp
        have hnil : deliveries job post = [] := by simpa using hp
        rw [hnil]
        cases s with
        | apply cb ecb => simp [Submit.tasks] at h0
        | map n c cb ecb =>
          have hc0 : c = 0 := by
            rcases Nat.eq_zero_or_pos c with q | q
            · exact q
            · simp only [Submit.tasks, splitTasks_length c q, List.length_range] at h0
              apply hz _ hmem n c cb ecb rfl
              by_contra hn
              have := (lt_numChunks n c 0 q).mpr (by omega)
              omega
          subst hc0
          rfl
        | imap n => simp [Submit.tasks] at h0; exact absurd (by rw [h0]) (hne _ hmem).1
        | imapUnordered n => simp [Submit.tasks] at h0; exact absurd (by rw [h0]) (hne _ hmem).2
    rw [hfalse] at hr
    simp only [Bool.false_eq_true, if_false, Prod.mk.injEq] at hr
    exact hr.1

/-- Two jobs with interleaved results. -/
example : let evs : List (Event Nat Nat) :=
      [.submit (.map 3 2 false false), .submit (.imap 2), .deliver 1 1 (.ok [5]), .deliver 0 1 (.ok [3]),
       .deliver 1 0 (.ok [4]), .deliver 0 0 (.ok [1, 2]), .deliver 0 0 (.ok [9, 9])]
    (Pool.run evs).canFinish = true ∧
    (Pool.run evs).handle? 0 = some (.map ⟨2, 0, .ok [some 1, some 2, some 3], true, false, false, []⟩) ∧
    (Pool.run evs).handle? 1 = some (.imap ⟨[.ok [4], .ok [5]], 2, 2, []⟩) := by
  decide

/-- `_map_async` never submits an empty input with a positive chunk size, as `C31_no_leftover_partial` asks. -/
theorem C31_map_empty (workers : Nat) (chunksize : Option Nat) : mapChunksize workers 0 chunksize = 0 := rfl

/-- `_next_job_idx` (pool.py:769-772) is not under a lock: the steps of two submitting threads, reading the counter (into a
local variable of the thread) and writing the incremented value. -/
inductive IdxStep
  | read (thread : Bool)
  | write (thread : Bool)

/-- The counter and the local variables of both threads. -/
def idxStep (s : Nat × Nat × Nat) : IdxStep → Nat × Nat × Nat
  | .read false => (s.1, s.1, s.2.2)
  | .read true => (s.1, s.2.1, s.1)
  | .write false => (s.2.1 + 1, s.2)
  | .write true => (s.2.2 + 1, s.2)

/-- Two threads that submit at the same time can get the same job number. -/
theorem C31_violated_race : ∃ steps : List IdxStep,
    let s := steps.foldl idxStep (0, 0, 0)
    s.2.1 = s.2.2 ∧ s.1 = 1 :=
  ⟨[.read false, .read true, .write false, .write true], by decide⟩

/-- Registered under one job number, the second handle replaces the first: the first thread's result goes to the second
handle, the other result is dropped, and the first handle is never ready. -/
theorem C31_violated_crosstalk (a b : Obj Nat Nat) :
    let p0 : Pool Nat Nat := ⟨1, [], []⟩
    let p1 := (p0.register 0 (Submit.handle (.apply false false))).register 0 (Submit.handle (.apply false false))
    let p := (p1.deliver 0 0 a).deliver 0 0 b
    p.cache = [] ∧ p.done = [(0, .async ⟨false, false, some a, true, []⟩)] := by
  rcases a with a | a <;> rcases b with b | b <;> exact ⟨rfl, rfl⟩

end Machin.Pool
