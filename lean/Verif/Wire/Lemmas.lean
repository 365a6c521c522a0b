import Verif.Wire.Model
import Verif.Wire.Spec

/-! # Lemmas about messages with tensors -/

namespace Machin.Wire

variable {D : Type} [Inhabited D]

set_option linter.unusedSectionVars false

/-- Every tensor object has an existing storage. -/
def Mem.WF (m : Mem D) : Prop := ∀ s ∈ m.objs, s < m.stores.length

theorem memoize_mem (memo os : List Nat) (o : Nat) : o ∈ memoize memo os ↔ o ∈ memo ∨ o ∈ os := by
  induction os generalizing memo with
  | nil => simp [memoize]
  | cons x os ih =>
    rw [memoize, ih]
    split
    · rename_i h
      simp only [List.mem_cons]
      constructor
      · rintro (h1 | h1)
        · exact Or.inl h1
        · exact Or.inr (Or.inr h1)
      · rintro (h1 | h1 | h1)
        · exact Or.inl h1
        · subst h1; exact Or.inl h
        · exact Or.inr h1
    · simp only [List.mem_append, List.mem_cons, List.not_mem_nil, or_false, or_assoc]

theorem rebuild_full (m : Mem D) (ds : List D) :
    rebuild m (ds.map .full) = ⟨m.objs ++ (List.range ds.length).map (m.stores.length + ·), m.stores ++ ds⟩ := by
  induction ds generalizing m with
  | nil => simp [rebuild]
  | cons d ds ih =>
    rw [List.map_cons, rebuild, ih]
    simp only [Mem.new, List.length_append, List.length_cons, List.length_nil, List.append_assoc, List.cons_append, List.nil_append, List.range_succ_eq_map,
      List.map_cons, List.map_map, Nat.add_zero, Mem.mk.injEq, List.append_cancel_left_eq, List.cons.injEq, true_and, and_true]
    apply List.map_congr_left
    intro a _
    simp only [Function.comp]
    omega

theorem rebuild_ref (m : Mem D) (ss : List Nat) : rebuild m (ss.map .ref) = ⟨m.objs ++ ss, m.stores⟩ := by
  induction ss generalizing m with
  | nil => simp [rebuild]
  | cons s ss ih => rw [List.map_cons, rebuild, ih]; simp

/-- Rebuilding adds tensor objects and storages. -/
theorem rebuild_ext (m : Mem D) (ps : List (Part D)) : ∃ a b, rebuild m ps = ⟨m.objs ++ a, m.stores ++ b⟩ := by
  induction ps generalizing m with
  | nil => exact ⟨[], [], by simp [rebuild]⟩
  | cons p ps ih =>
    cases p with
    | full d =>
      obtain ⟨a, b, h⟩ := ih (m.new d)
      exact ⟨m.stores.length :: a, d :: b, by rw [rebuild, h]; simp [Mem.new]⟩
    | ref s =>
      obtain ⟨a, b, h⟩ := ih { m with objs := m.objs ++ [s] }
      exact ⟨s :: a, b, by rw [rebuild, h]; simp⟩

theorem store_ext (m : Mem D) (a : List Nat) (b : List D) (o : Nat) (h : o < m.objs.length) :
    (⟨m.objs ++ a, m.stores ++ b⟩ : Mem D).store o = m.store o := by
  simp [Mem.store, List.getD, List.getElem?_append_left h]

theorem store_lt {m : Mem D} (hwf : m.WF) (o : Nat) (h : o < m.objs.length) : m.store o < m.stores.length := by
  apply hwf
  simp [Mem.store, List.getD, List.getElem?_eq_getElem h]

theorem data_ext {m : Mem D} (hwf : m.WF) (a : List Nat) (b : List D) (o : Nat) (h : o < m.objs.length) :
    (⟨m.objs ++ a, m.stores ++ b⟩ : Mem D).data o = m.data o := by
  unfold Mem.data
  rw [store_ext m a b o h]
  simp [List.getD, List.getElem?_append_left (store_lt hwf o h)]

theorem write_objs (m : Mem D) (o : Nat) (d : D) : (m.write o d).objs = m.objs := rfl

theorem write_store (m : Mem D) (o x : Nat) (d : D) : (m.write o d).store x = m.store x := rfl

/-- A write is seen by the tensor objects of the same storage and by no other. -/
theorem write_data (m : Mem D) (o x : Nat) (d : D) (hlt : m.store o < m.stores.length) :
    (m.write o d).data x = if m.store o = m.store x then d else m.data x := by
  unfold Mem.data
  rw [write_store]
  simp only [Mem.write, List.getD, List.getElem?_set]
  split
  · simp
  · rfl

omit [Inhabited D] in
theorem write_wf {m : Mem D} (h : m.WF) (o : Nat) (d : D) : (m.write o d).WF := by
  intro s hs
  have := h s hs
  simpa [Mem.write] using this

/-- What a message of copies rebuilds. -/
theorem loads_full {S : Type} (m m' : Mem D) (p : Payload S) (i o : Nat) (h : p.tens[i]? = some o) :
    ∃ j, j < (memoize [] p.tens).length ∧ j = (memoize [] p.tens).idxOf o ∧
      (loads m' (dumps m true p)).2.tens[i]? = some (m'.objs.length + j) ∧
      (loads m' (dumps m true p)).1.store (m'.objs.length + j) = m'.stores.length + j ∧
      (loads m' (dumps m true p)).1.data (m'.objs.length + j) = m.data o := by
  have hmem : o ∈ memoize [] p.tens := (memoize_mem _ _ _).2 (Or.inr (List.mem_of_getElem? h))
  have hj : (memoize [] p.tens).idxOf o < (memoize [] p.tens).length := List.idxOf_lt_length_of_mem hmem
  have hget : (memoize [] p.tens)[(memoize [] p.tens).idxOf o]? = some o := by
    rw [List.getElem?_eq_getElem hj, List.getElem_idxOf]
  have hparts : (memoize [] p.tens).map (reduceTensor m true) = ((memoize [] p.tens).map m.data).map Part.full := by
    rw [List.map_map]
    rfl
  have hstore : (loads m' (dumps m true p)).1.store (m'.objs.length + (memoize [] p.tens).idxOf o) =
      m'.stores.length + (memoize [] p.tens).idxOf o := by
    simp only [loads, dumps, hparts, rebuild_full, Mem.store, List.getD]
    rw [List.getElem?_append_right (by omega), Nat.add_sub_cancel_left]
    simp [hj]
  refine ⟨_, hj, rfl, ?_, hstore, ?_⟩
  · simp [loads, dumps, h]
  · unfold Mem.data
    rw [hstore]
    simp only [loads, dumps, hparts, rebuild_full, List.getD]
    rw [List.getElem?_append_right (by omega), Nat.add_sub_cancel_left, List.getElem?_map, hget]
    rfl

/-- What a message of references rebuilds. -/
theorem loads_ref {S : Type} (m m' : Mem D) (p : Payload S) (i o : Nat) (h : p.tens[i]? = some o) :
    ∃ x, (loads m' (dumps m false p)).2.tens[i]? = some x ∧ m'.objs.length ≤ x ∧ (loads m' (dumps m false p)).1.store x = m.store o := by
  have hmem : o ∈ memoize [] p.tens := (memoize_mem _ _ _).2 (Or.inr (List.mem_of_getElem? h))
  have hj : (memoize [] p.tens).idxOf o < (memoize [] p.tens).length := List.idxOf_lt_length_of_mem hmem
  have hget : (memoize [] p.tens)[(memoize [] p.tens).idxOf o]? = some o := by
    rw [List.getElem?_eq_getElem hj, List.getElem_idxOf]
  have hparts : (memoize [] p.tens).map (reduceTensor m false) = ((memoize [] p.tens).map m.store).map Part.ref := by
    rw [List.map_map]
    rfl
  refine ⟨m'.objs.length + (memoize [] p.tens).idxOf o, by simp [loads, dumps, h], by omega, ?_⟩
  simp only [loads, dumps, hparts, rebuild_ref, Mem.store, List.getD]
  rw [List.getElem?_append_right (by omega), Nat.add_sub_cancel_left, List.getElem?_map, hget]
  rfl

/-- References add no storage. -/
theorem loads_ref_stores {S : Type} (m m' : Mem D) (p : Payload S) :
    ∃ a, (loads m' (dumps m false p)).1 = ⟨m'.objs ++ a, m'.stores⟩ ∧ ∀ s ∈ a, ∃ o ∈ p.tens, s = m.store o := by
  have hparts : (memoize [] p.tens).map (reduceTensor m false) = ((memoize [] p.tens).map m.store).map Part.ref := by
    rw [List.map_map]
    rfl
  refine ⟨(memoize [] p.tens).map m.store, by simp only [loads, dumps, hparts, rebuild_ref], ?_⟩
  intro s hs
  obtain ⟨o, ho, rfl⟩ := List.mem_map.1 hs
  refine ⟨o, ?_, rfl⟩
  have := (memoize_mem _ _ _).1 ho
  simpa using this

theorem loads_tens_length {S : Type} (m m' : Mem D) (c : Bool) (p : Payload S) : (loads m' (dumps m c p)).2.tens.length = p.tens.length := by
  simp [loads, dumps]

/-- The received tensors of a message of references have the storages of the sent ones. -/
theorem loads_ref_map {S : Type} (m m' : Mem D) (p : Payload S) :
    (loads m' (dumps m false p)).2.tens.map (loads m' (dumps m false p)).1.store = p.tens.map m.store := by
  apply List.ext_getElem?
  intro i
  rw [List.getElem?_map, List.getElem?_map]
  cases h : p.tens[i]? with
  | none =>
    have : (loads m' (dumps m false p)).2.tens[i]? = none := by
      rw [List.getElem?_eq_none_iff, loads_tens_length]
      exact List.getElem?_eq_none_iff.1 h
    rw [this]
    rfl
  | some o =>
    obtain ⟨x, h1, -, h3⟩ := loads_ref m m' p i o h
    rw [h1, Option.map_some, Option.map_some, h3]

theorem loads_tens_lt {S : Type} (m m' : Mem D) (p : Payload S) :
    ∀ x ∈ (loads m' (dumps m false p)).2.tens, x < (loads m' (dumps m false p)).1.objs.length := by
  intro x hx
  simp only [loads, dumps, List.mem_map] at hx ⊢
  obtain ⟨u, ⟨w, hw, rfl⟩, rfl⟩ := hx
  have hw' : List.idxOf w (memoize [] p.tens) < (memoize [] p.tens).length := List.idxOf_lt_length_of_mem ((memoize_mem _ _ _).2 (Or.inr hw))
  have hparts : (memoize [] p.tens).map (reduceTensor m false) = ((memoize [] p.tens).map m.store).map Part.ref := by rw [List.map_map]; rfl
  rw [hparts, rebuild_ref]
  simp
  omega

/-! ### Bodies -/

omit [Inhabited D] in
theorem target_obj_store (m m' : Mem D) (caps args caps' args' : List Nat) (hc : caps.map m.store = caps'.map m'.store)
    (ha : args.map m.store = args'.map m'.store) (t : Target) : (t.obj caps args).map m.store = (t.obj caps' args').map m'.store := by
  cases t with
  | captured k =>
    have := congrArg (·[k]?) hc
    simpa [Target.obj] using this
  | arg k =>
    have := congrArg (·[k]?) ha
    simpa [Target.obj] using this

theorem data_map_eq (m m' : Mem D) (xs ys : List Nat) (h : xs.map m.store = ys.map m'.store) (hs : m.stores = m'.stores) :
    xs.map m.data = ys.map m'.data := by
  have : ∀ (m : Mem D) (l : List Nat), l.map m.data = (l.map m.store).map fun s => m.stores.getD s default := by
    intro m l
    rw [List.map_map]
    rfl
  rw [this, this, h, hs]

/-- The effect of a body on the storages depends on the storages of what it is given only. -/
theorem runBody_stores (body : List (Target × (List D → List D → D))) (m m' : Mem D) (caps args caps' args' : List Nat) (hs : m.stores = m'.stores)
    (hc : caps.map m.store = caps'.map m'.store) (ha : args.map m.store = args'.map m'.store) :
    (runBody m caps args body).stores = (runBody m' caps' args' body).stores ∧ (runBody m caps args body).objs = m.objs := by
  induction body generalizing m m' with
  | nil => exact ⟨hs, rfl⟩
  | cons x body ih =>
    obtain ⟨t, f⟩ := x
    have ht := target_obj_store m m' caps args caps' args' hc ha t
    unfold runBody
    cases h1 : t.obj caps args with
    | none =>
      cases h2 : t.obj caps' args' with
      | none => exact ih m m' hs hc ha
      | some o => rw [h1, h2] at ht; simp at ht
    | some o =>
      cases h2 : t.obj caps' args' with
      | none => rw [h1, h2] at ht; simp at ht
      | some o' =>
        rw [h1, h2, Option.map_some, Option.map_some, Option.some.injEq] at ht
        have hval : f (caps.map m.data) (args.map m.data) = f (caps'.map m'.data) (args'.map m'.data) := by
          rw [data_map_eq m m' _ _ hc hs, data_map_eq m m' _ _ ha hs]
        have hs' : (m.write o (f (caps.map m.data) (args.map m.data))).stores = (m'.write o' (f (caps'.map m'.data) (args'.map m'.data))).stores := by
          simp only [Mem.write, ht, hs, hval]
        exact ih _ _ hs' hc ha

theorem runBody_objs (body : List (Target × (List D → List D → D))) (m : Mem D) (caps args : List Nat) : (runBody m caps args body).objs = m.objs :=
  (runBody_stores body m m caps args caps args rfl rfl rfl).2

/-- A body changes only the storages of the tensors it has. -/
theorem runBody_other (body : List (Target × (List D → List D → D))) (m : Mem D) (caps args : List Nat) (s : Nat)
    (h : ∀ t ∈ body, ∀ o, t.1.obj caps args = some o → m.store o ≠ s) : (runBody m caps args body).stores[s]? = m.stores[s]? := by
  induction body generalizing m with
  | nil => rfl
  | cons x body ih =>
    obtain ⟨t, f⟩ := x
    unfold runBody
    cases h1 : t.obj caps args with
    | none => exact ih m (fun t' ht' => h t' (by simp [ht']))
    | some o =>
      rw [ih (m.write o _) (fun t' ht' o' ho' => h t' (by simp [ht']) o' ho')]
      simp only [Mem.write]
      rw [List.getElem?_set_ne (h (t, f) (by simp) o h1)]

theorem runBody_length (body : List (Target × (List D → List D → D))) (m : Mem D) (caps args : List Nat) :
    (runBody m caps args body).stores.length = m.stores.length := by
  induction body generalizing m with
  | nil => rfl
  | cons x body ih =>
    obtain ⟨t, f⟩ := x
    unfold runBody
    cases t.obj caps args with
    | none => exact ih m
    | some o => rw [ih]; simp [Mem.write]

theorem apply_process (k : Kind) (hk : k.process = true) (c : Bool) (m : Mem D) (fn : Fn D) (args : List Nat) :
    apply k c m fn args =
      (let t := loads m (dumps m false ⟨dumps m c ⟨(), fn.caps⟩, args⟩)
       let f := loads t.1 (dumps m c ⟨(), fn.caps⟩)
       let b := runBody f.1 f.2.tens t.2.tens fn.body
       let r := loads b (dumps b false ⟨(), fn.result.filterMap (·.obj f.2.tens t.2.tens)⟩)
       (r.1, r.2.tens)) := by
  cases k <;> first | rfl | cases hk

/-! ### Construction -/

theorem makePool_iff (cpus : Nat) (k : Kind) (s : Settings) (u : Option Bool) :
    ((∃ p, makePool cpus k s u = .ok p) ↔ (∀ n, s.processes = some n → 1 ≤ n) ∧ u ≠ some false ∧
      (s.isCopy = false → s.shareMethod = some "cpu" ∨ s.shareMethod = some "cuda")) ∧
      ∀ p, makePool cpus k s u = .ok p → p.maxtasks = s.maxtasks ∧ p.initializer = s.initializer ∧
        (∀ n, s.processes = some n → (p.workers : Int) = n) ∧ 1 ≤ p.workers := by
  have hdef : ¬ ((if cpus = 0 then (1 : Int) else cpus) < 1) := by split <;> omega
  constructor
  · constructor
    · rintro ⟨p, h⟩
      unfold makePool at h
      simp only at h
      generalize hq : s.processes.getD _ = q at h
      split at h
      · cases h
      rename_i h1
      split at h
      · cases h
      rename_i h2
      split at h
      · cases h
      rename_i h3
      refine ⟨?_, h3, ?_⟩
      · intro n hn
        rw [hn, Option.getD_some] at hq
        omega
      · intro hc
        rw [hc] at h2
        simpa [Classical.or_iff_not_imp_left] using h2
    · rintro ⟨h1, h2, h3⟩
      unfold makePool
      simp only
      rw [if_neg, if_neg, if_neg h2]
      · exact ⟨_, rfl⟩
      · simp only [Bool.and_eq_true, Bool.not_eq_true', Bool.or_eq_false_iff, decide_eq_false_iff_not, not_and]
        intro hc h4 h5
        rcases h3 hc with h | h
        · exact h4 h
        · exact h5 h
      · cases hp : s.processes with
        | none => exact hdef
        | some n =>
          have := h1 n hp
          simp
          exact this
  · intro p h
    unfold makePool at h
    simp only at h
    generalize hq : s.processes.getD _ = q at h
    split at h
    · cases h
    rename_i h1
    split at h
    · cases h
    split at h
    · cases h
    cases k <;>
    · cases h
      refine ⟨rfl, rfl, ?_, ?_⟩
      · intro n hn
        rw [hn, Option.getD_some] at hq
        simp only
        omega
      · simp only
        omega

end Machin.Wire
