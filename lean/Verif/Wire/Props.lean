import Verif.Wire.Lemmas
import Verif.Wire.Spec

/-! # Properties of messages with tensors (C196, C197) -/

namespace Machin.Wire

variable {D : Type} [Inhabited D]

/-! ### C196: sending by copy is a snapshot, sending by reference shares -/

/-- `loads(dumps(obj, copy_tensor=True))` has the skeleton of the object, the contents which its tensors had when it was dumped — whatever happened until it is
loaded — and the same tensor twice where the object had the same tensor twice. -/
theorem C196_snapshot {S : Type} (m m' : Mem D) (p : Payload S) :
    (loads m' (dumps m true p)).2.skel = p.skel ∧
      (loads m' (dumps m true p)).2.tens.map (loads m' (dumps m true p)).1.data = p.tens.map m.data ∧
      SamePattern p.tens (loads m' (dumps m true p)).2.tens := by
  refine ⟨rfl, ?_, by rw [loads_tens_length], ?_⟩
  · apply List.ext_getElem?
    intro i
    rw [List.getElem?_map, List.getElem?_map]
    cases h : p.tens[i]? with
    | none =>
      have : (loads m' (dumps m true p)).2.tens[i]? = none := by
        rw [List.getElem?_eq_none_iff, loads_tens_length]
        exact List.getElem?_eq_none_iff.1 h
      rw [this]
      rfl
    | some o =>
      obtain ⟨j, -, -, h1, -, h3⟩ := loads_full m m' p i o h
      rw [h1, Option.map_some, Option.map_some, h3]
  · intro i j a b a' b' ha hb ha' hb'
    obtain ⟨x, -, hx, h1, -, -⟩ := loads_full m m' p i a ha
    obtain ⟨y, -, hy, h2, -, -⟩ := loads_full m m' p j b hb
    rw [h1, Option.some.injEq] at ha'
    rw [h2, Option.some.injEq] at hb'
    constructor
    · rintro rfl
      rw [← ha', ← hb', hx, hy]
    · intro h
      have hxy : (memoize [] p.tens).idxOf a = (memoize [] p.tens).idxOf b := by omega
      have hmem : ∀ o ∈ p.tens, (memoize [] p.tens)[(memoize [] p.tens).idxOf o]? = some o := by
        intro o ho
        rw [List.getElem?_eq_getElem (List.idxOf_lt_length_of_mem ((memoize_mem _ _ _).2 (Or.inr ho))), List.getElem_idxOf]
      have e1 := hmem a (List.mem_of_getElem? ha)
      have e2 := hmem b (List.mem_of_getElem? hb)
      rw [hxy, e2] at e1
      exact (Option.some.inj e1).symm

/-- The tensors received by copy are new: no write to one of them is seen through an older tensor, and no write to an older tensor through one of them. -/
theorem C196_isolated {S : Type} (m m' : Mem D) (hwf : m'.WF) (p : Payload S) (x : Nat) (hx : x ∈ (loads m' (dumps m true p)).2.tens) (o : Nat)
    (ho : o < m'.objs.length) (d : D) :
    (loads m' (dumps m true p)).1.data o = m'.data o ∧ ((loads m' (dumps m true p)).1.write x d).data o = m'.data o ∧
      ((loads m' (dumps m true p)).1.write o d).data x = (loads m' (dumps m true p)).1.data x ∧ ((loads m' (dumps m true p)).1.write x d).data x = d := by
  obtain ⟨i, hi⟩ := List.mem_iff_getElem?.1 hx
  have hlen : i < p.tens.length := by
    rw [← loads_tens_length m m' true p]
    exact (List.getElem?_eq_some_iff.1 hi).1
  obtain ⟨j, hj, -, h1, h2, -⟩ := loads_full m m' p i _ (List.getElem?_eq_getElem hlen)
  rw [h1, Option.some.injEq] at hi
  subst hi
  obtain ⟨a, b, hab⟩ := rebuild_ext m' (dumps m true p).parts
  have hl : (loads m' (dumps m true p)).1 = ⟨m'.objs ++ a, m'.stores ++ b⟩ := hab
  have hb : (loads m' (dumps m true p)).1.stores.length = m'.stores.length + (memoize [] p.tens).length := by
    have hparts : (memoize [] p.tens).map (reduceTensor m true) = ((memoize [] p.tens).map m.data).map Part.full := by
      rw [List.map_map]
      rfl
    simp only [loads, dumps, hparts, rebuild_full, List.length_append, List.length_map]
  have hso : (loads m' (dumps m true p)).1.store o = m'.store o := by rw [hl]; exact store_ext m' a b o ho
  have hlt := store_lt hwf o ho
  have hdo : (loads m' (dumps m true p)).1.data o = m'.data o := by rw [hl]; exact data_ext hwf a b o ho
  refine ⟨hdo, ?_, ?_, ?_⟩
  · rw [write_data _ _ _ _ (by rw [h2, hb]; omega), if_neg (by rw [h2, hso]; omega), hdo]
  · rw [write_data _ _ _ _ (by rw [hso, hb]; omega), if_neg (by rw [h2, hso]; omega)]
  · rw [write_data _ _ _ _ (by rw [h2, hb]; omega), if_pos rfl]

/-- The tensors received by reference are the tensors sent: they have the storages of these (in every later memory, as tensor objects keep their storages), so
that every later write to one is seen through the other. -/
theorem C196_reference {S : Type} (m m' : Mem D) (p : Payload S) (i o x : Nat) (h : p.tens[i]? = some o)
    (hx : (loads m' (dumps m false p)).2.tens[i]? = some x) :
    (loads m' (dumps m false p)).1.store x = m.store o ∧
      ∀ later : Mem D, later.store x = (loads m' (dumps m false p)).1.store x → later.store o = m.store o → later.data x = later.data o := by
  obtain ⟨y, h1, -, h3⟩ := loads_ref m m' p i o h
  rw [h1, Option.some.injEq] at hx
  subst hx
  refine ⟨h3, ?_⟩
  intro later e1 e2
  unfold Mem.data
  rw [e1, e2, h3]

private theorem loads_value {S : Type} (m m' : Mem D) (p : Payload S) :
    ((loads m' (dumps m true p)).2.skel, (loads m' (dumps m true p)).2.tens.map (loads m' (dumps m true p)).1.data) = (p.skel, p.tens.map m.data) := by
  obtain ⟨h1, h2, -⟩ := C196_snapshot m m' p
  rw [h1, h2]

/-- Through a queue with `copy_tensor=True` messages come out in the order in which they went in, each with the contents that its tensors had when it went in, for
every history of creating, writing, sending and receiving; none is lost or repeated. -/
theorem C196_history {S : Type} (acts : List (Act S D)) (m : Mem D) :
    ∃ rest, (Chan.run true ⟨m, [], [], []⟩ acts).sent = (Chan.run true ⟨m, [], [], []⟩ acts).received ++ rest ∧
      rest.length = (Chan.run true ⟨m, [], [], []⟩ acts).pipe.length := by
  have inv : ∀ (acts : List (Act S D)) (c : Chan S D) (l : List (Mem D × Payload S)),
      c.sent = c.received ++ l.map (fun q => (q.2.skel, q.2.tens.map q.1.data)) → c.pipe = l.map (fun q => dumps q.1 true q.2) →
      ∃ rest, (Chan.run true c acts).sent = (Chan.run true c acts).received ++ rest ∧ rest.length = (Chan.run true c acts).pipe.length := by
    intro acts
    induction acts with
    | nil =>
      intro c l h1 h2
      exact ⟨_, h1, by simp [Chan.run, h2]⟩
    | cons a acts ih =>
      intro c l h1 h2
      cases a with
      | new d => exact ih _ l h1 h2
      | alias o => exact ih _ l h1 h2
      | write o d => exact ih _ l h1 h2
      | put p =>
        refine ih _ (l ++ [(c.mem, p)]) ?_ ?_
        · simp [Chan.step, h1]
        · simp [Chan.step, h2]
      | get =>
        cases l with
        | nil =>
          have hstep : c.step true .get = c := by simp [Chan.step, h2]
          unfold Chan.run
          rw [hstep]
          exact ih c [] h1 h2
        | cons q l =>
          refine ih _ l ?_ ?_
          · simp only [Chan.step, h2, List.map_cons]
            rw [loads_value, List.append_assoc, h1]
            rfl
          · simp only [Chan.step, h2, List.map_cons]
  exact inv acts _ [] rfl rfl

/-- C196: a view and its tensor share: writing through one is seen through the other. -/
theorem C196_alias (m : Mem D) (o : Nat) (ho : o < m.objs.length) (hs : m.store o < m.stores.length) (d : D) :
    (m.alias o).store m.objs.length = m.store o ∧ ((m.alias o).write o d).data m.objs.length = d ∧ ((m.alias o).write m.objs.length d).data o = d := by
  have h1 : (m.alias o).store m.objs.length = m.store o := by simp [Mem.alias, Mem.store]
  have h2 : (m.alias o).store o = m.store o := by simp [Mem.alias, Mem.store, List.getElem?_append_left ho]
  have h3 : (m.alias o).stores = m.stores := rfl
  refine ⟨h1, ?_, ?_⟩
  · change ((m.alias o).stores.set ((m.alias o).store o) d).getD ((m.alias o).store m.objs.length) default = d
    rw [h1, h2, h3]; simp [hs]
  · change ((m.alias o).stores.set ((m.alias o).store m.objs.length) d).getD ((m.alias o).store o) default = d
    rw [h1, h2, h3]; simp [hs]

/-- A view of a tensor whose number is not that of its storage. -/
example : ((⟨[0, 0, 1], [5, 6]⟩ : Mem Int).alias 2).objs = [0, 0, 1, 1] ∧ (((⟨[0, 0, 1], [5, 6]⟩ : Mem Int).alias 2).write 3 9).data 2 = 9 := by decide

/-- Copying separates tensors that share a storage: views of one tensor come out as independent tensors with the same contents. -/
theorem C196_views {S : Type} (m m' : Mem D) (p : Payload S) (i j a b x y : Nat) (ha : p.tens[i]? = some a) (hb : p.tens[j]? = some b) (hne : a ≠ b)
    (hx : (loads m' (dumps m true p)).2.tens[i]? = some x) (hy : (loads m' (dumps m true p)).2.tens[j]? = some y) :
    (loads m' (dumps m true p)).1.store x ≠ (loads m' (dumps m true p)).1.store y := by
  have hp := (C196_snapshot m m' p).2.2.2 i j a b x y ha hb hx hy
  obtain ⟨u, -, -, h1, h2, -⟩ := loads_full m m' p i a ha
  obtain ⟨v, -, -, h3, h4, -⟩ := loads_full m m' p j b hb
  rw [hx, Option.some.injEq] at h1
  rw [hy, Option.some.injEq] at h3
  subst h1 h3
  rw [h2, h4]
  intro h
  exact hne (hp.2 (by omega))

/-- A history with a change between sending and receiving: the copy has the old content, the reference the new one. -/
example :
    (Chan.run true (⟨⟨[], []⟩, [], [], []⟩ : Chan String Int) [.new 5, .alias 0, .put ⟨"w", [0, 1, 0]⟩, .write 0 7, .get]).received = [("w", [5, 5, 5])] ∧
    (Chan.run false (⟨⟨[], []⟩, [], [], []⟩ : Chan String Int) [.new 5, .alias 0, .put ⟨"w", [0, 1, 0]⟩, .write 0 7, .get]).received = [("w", [7, 7, 7])] ∧
    (Chan.run true (⟨⟨[], []⟩, [], [], []⟩ : Chan String Int) [.new 5, .alias 0, .put ⟨"w", [0, 1, 0]⟩, .write 0 7, .get]).mem = ⟨[0, 0, 1, 2], [7, 5, 5]⟩ := by
  decide +kernel

/-- A memory as in the theorems. -/
example : (⟨[0, 0, 1], [5, 6]⟩ : Mem Int).WF ∧ 1 < (⟨[0, 0, 1], [5, 6]⟩ : Mem Int).objs.length := by
  refine ⟨?_, by decide⟩
  unfold Mem.WF
  decide

/-! ### C197: pools with `is_copy_tensor` -/

/-- Full statement: in a pool with `is_copy_tensor=True` whose workers are processes, a call of any function changes no tensor of the caller. -/
def C197_full : Prop :=
  ∀ (k : Kind) (m : Mem Int) (fn : Fn Int) (args : List Nat), k.process = true → m.WF → (∀ o ∈ fn.caps, o < m.objs.length) →
    (∀ o ∈ args, o < m.objs.length) → Untouched m (apply k true m fn args).1

/-- It fails in every such pool: arguments go by reference, and what the worker writes into one is in the tensor of the caller. -/
theorem C197_violated_each (k : Kind) (hk : k.process = true) :
    (apply k true (⟨[0], [5]⟩ : Mem Int) ⟨[], [(.arg 0, fun _ _ => 9)], []⟩ [0]).1.data 0 = 9 := by
  cases k <;> first | decide +kernel | cases hk

theorem C197_violated : ¬ C197_full := by
  intro h
  have h1 := h .pool ⟨[0], [5]⟩ ⟨[], [(.arg 0, fun _ _ => 9)], []⟩ [0] rfl (by unfold Mem.WF; decide) (by decide) (by decide) 0 (by decide)
  rw [C197_violated_each .pool rfl] at h1
  exact absurd h1 (by decide)

/-- What holds for the process pools with copying: a call changes at most tensors that share their storage with an argument, and only those the function writes to. -/
theorem C197_partial (k : Kind) (hk : k.process = true) (m : Mem D) (hwf : m.WF) (fn : Fn D) (args : List Nat) (o : Nat) (ho : o < m.objs.length)
    (h : ∀ (i a : Nat), (∃ f, (Target.arg i, f) ∈ fn.body) → args[i]? = some a → m.store a ≠ m.store o) :
    (apply k true m fn args).1.data o = m.data o := by
  rw [apply_process k hk]
  obtain ⟨a, ha, -⟩ := loads_ref_stores m m (⟨dumps m true ⟨(), fn.caps⟩, args⟩ : Payload (Msg Unit D))
  obtain ⟨c, d, hcd⟩ := rebuild_ext (loads m (dumps m false (⟨dumps m true ⟨(), fn.caps⟩, args⟩ : Payload (Msg Unit D)))).1 (dumps m true ⟨(), fn.caps⟩).parts
  dsimp only
  generalize ht : loads m (dumps m false (⟨dumps m true ⟨(), fn.caps⟩, args⟩ : Payload (Msg Unit D))) = t at *
  generalize hf : loads t.1 (dumps m true (⟨(), fn.caps⟩ : Payload Unit)) = f at *
  have hf1 : f.1 = ⟨m.objs ++ (a ++ c), m.stores ++ d⟩ := by
    rw [← hf]
    show rebuild t.1 _ = _
    rw [hcd, ha]
    simp
  have hso : f.1.store o = m.store o := by rw [hf1]; exact store_ext m _ _ o ho
  have hslt := store_lt hwf o ho
  -- the body
  have hbody : (runBody f.1 f.2.tens t.2.tens fn.body).stores[m.store o]? = f.1.stores[m.store o]? := by
    apply runBody_other
    intro tf htf x hx
    rcases htf' : tf with ⟨tt, ff⟩
    rw [htf'] at hx htf
    cases tt with
    | captured i =>
      have hx' : f.2.tens[i]? = some x := hx
      have hi : i < fn.caps.length := by
        have := (List.getElem?_eq_some_iff.1 hx').1
        rw [← hf, loads_tens_length] at this
        exact this
      obtain ⟨j, -, -, h1, h2, -⟩ := loads_full m t.1 (⟨(), fn.caps⟩ : Payload Unit) i _ (List.getElem?_eq_getElem hi)
      rw [hf] at h1 h2
      rw [hx', Option.some.injEq] at h1
      rw [h1, h2, ha]
      simp only
      omega
    | arg i =>
      have hx' : t.2.tens[i]? = some x := hx
      have hi : i < args.length := by
        have := (List.getElem?_eq_some_iff.1 hx').1
        rw [← ht, loads_tens_length] at this
        exact this
      obtain ⟨y, h1, h2, h3⟩ := loads_ref m m (⟨dumps m true ⟨(), fn.caps⟩, args⟩ : Payload (Msg Unit D)) i args[i] (List.getElem?_eq_getElem hi)
      rw [ht] at h1 h3
      rw [hx', Option.some.injEq] at h1
      subst h1
      have hxlt : x < t.1.objs.length := by
        have := loads_tens_lt m m (⟨dumps m true ⟨(), fn.caps⟩, args⟩ : Payload (Msg Unit D)) x
        rw [ht] at this
        exact this (List.mem_of_getElem? hx')
      have : f.1.store x = t.1.store x := by
        rw [← hf]
        show (rebuild t.1 _).store x = _
        rw [hcd]
        exact store_ext t.1 c d x hxlt
      rw [this, h3]
      exact h i _ ⟨ff, htf⟩ (List.getElem?_eq_getElem hi)
  obtain ⟨e, he, -⟩ := loads_ref_stores (runBody f.1 f.2.tens t.2.tens fn.body) (runBody f.1 f.2.tens t.2.tens fn.body)
    (⟨(), fn.result.filterMap (·.obj f.2.tens t.2.tens)⟩ : Payload Unit)
  rw [he]
  unfold Mem.data
  have hst : (⟨(runBody f.1 f.2.tens t.2.tens fn.body).objs ++ e, (runBody f.1 f.2.tens t.2.tens fn.body).stores⟩ : Mem D).store o = m.store o := by
    rw [runBody_objs, hf1]
    simp only [Mem.store, List.getD]
    rw [List.append_assoc, List.getElem?_append_left ho]
  rw [hst]
  simp only [List.getD]
  rw [hbody, hf1]
  simp only
  rw [List.getElem?_append_left hslt]

/-- In particular a function that writes only to tensors it has captured changes nothing of the caller. -/
theorem C197_captured_partial (k : Kind) (hk : k.process = true) (m : Mem D) (hwf : m.WF) (fn : Fn D) (args : List Nat)
    (h : ∀ i f, (Target.arg i, f) ∉ fn.body) : Untouched m (apply k true m fn args).1 := by
  intro o ho
  exact C197_partial k hk m hwf fn args o ho (fun i a ⟨f, hf⟩ => absurd hf (h i f))

/-- Without copying a call is the same as calling the function directly: same storages, and results with the storages of the direct results. -/
theorem C197_shared_partial (k : Kind) (hk : k.process = true) (m : Mem D) (fn : Fn D) (args : List Nat) :
    (apply k false m fn args).1.stores = (direct m fn args).1.stores ∧
      (apply k false m fn args).2.map (apply k false m fn args).1.store = (direct m fn args).2.map (direct m fn args).1.store := by
  rw [apply_process k hk]
  obtain ⟨a, ha, -⟩ := loads_ref_stores m m (⟨dumps m false ⟨(), fn.caps⟩, args⟩ : Payload (Msg Unit D))
  have harg := loads_ref_map m m (⟨dumps m false ⟨(), fn.caps⟩, args⟩ : Payload (Msg Unit D))
  have hlt := loads_tens_lt m m (⟨dumps m false ⟨(), fn.caps⟩, args⟩ : Payload (Msg Unit D))
  dsimp only
  generalize ht : loads m (dumps m false (⟨dumps m false ⟨(), fn.caps⟩, args⟩ : Payload (Msg Unit D))) = t at *
  obtain ⟨c, hc, -⟩ := loads_ref_stores m t.1 (⟨(), fn.caps⟩ : Payload Unit)
  have hcap := loads_ref_map m t.1 (⟨(), fn.caps⟩ : Payload Unit)
  generalize hf : loads t.1 (dumps m false (⟨(), fn.caps⟩ : Payload Unit)) = f at *
  have hfs : f.1.stores = m.stores := by rw [hc, ha]
  have hargf : t.2.tens.map f.1.store = args.map m.store := by
    rw [← harg]
    apply List.map_congr_left
    intro x hx
    have := store_ext t.1 c [] x (hlt x hx)
    rw [List.append_nil] at this
    rw [hc]
    exact this
  have hb := runBody_stores fn.body f.1 m f.2.tens t.2.tens fn.caps args hfs hcap hargf
  have hres := loads_ref_map (runBody f.1 f.2.tens t.2.tens fn.body) (runBody f.1 f.2.tens t.2.tens fn.body)
    (⟨(), fn.result.filterMap (·.obj f.2.tens t.2.tens)⟩ : Payload Unit)
  obtain ⟨e, he, -⟩ := loads_ref_stores (runBody f.1 f.2.tens t.2.tens fn.body) (runBody f.1 f.2.tens t.2.tens fn.body)
    (⟨(), fn.result.filterMap (·.obj f.2.tens t.2.tens)⟩ : Payload Unit)
  refine ⟨by rw [he]; exact hb.1, ?_⟩
  rw [hres]
  have h1 : (runBody f.1 f.2.tens t.2.tens fn.body).store = f.1.store := by
    funext x; unfold Mem.store; rw [runBody_objs]
  have h2 : (direct m fn args).1.store = m.store := by
    funext x; unfold Mem.store direct; rw [runBody_objs]
  rw [h1, h2]
  show List.map f.1.store (fn.result.filterMap _) = List.map m.store (fn.result.filterMap _)
  rw [List.map_filterMap, List.map_filterMap]
  congr 1
  funext tt
  exact target_obj_store f.1 m f.2.tens t.2.tens fn.caps args hcap hargf tt

/-- In a thread pool the arguments are the tensors of the caller themselves, and the results may be; captured tensors are copied as in a process pool. -/
theorem C197_threads_partial (k : Kind) (hk : k.process = false) (c : Bool) (m : Mem D) (fn : Fn D) (args : List Nat) :
    apply k c m fn args =
      (runBody (loads m (dumps m c ⟨(), fn.caps⟩)).1 (loads m (dumps m c (⟨(), fn.caps⟩ : Payload Unit))).2.tens args fn.body,
        fn.result.filterMap (·.obj (loads m (dumps m c (⟨(), fn.caps⟩ : Payload Unit))).2.tens args)) := by
  cases k <;> first | rfl | cases hk

/-- A call that meets the hypotheses of `C197_partial` for tensor 0 and not for tensor 1: the captured tensor 0 keeps its content, the argument does not; the worker
has computed with both. -/
example :
    (apply .pool true (⟨[0, 1], [5, 6]⟩ : Mem Int) ⟨[0], [(.captured 0, fun _ _ => 8), (.arg 0, fun c a => c.sum + a.sum)], [.captured 0, .arg 0]⟩ [1]).1.stores =
      [5, 14, 8] ∧
    (apply .pool false (⟨[0, 1], [5, 6]⟩ : Mem Int) ⟨[0], [(.captured 0, fun _ _ => 8), (.arg 0, fun c a => c.sum + a.sum)], [.captured 0, .arg 0]⟩ [1]).1.stores =
      [8, 14] := by
  decide +kernel

end Machin.Wire
