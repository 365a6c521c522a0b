import Verif.Config.LemmasFile

/-! # Properties of configurations from the command line and from files: C156, C157 -/

namespace Machin.Config

variable {V : Type}

/-! ### C156: the command line -/

/-- C156, full statement: `--conf a=b` sets `a` to the value of `b`, for every `b` that has a value. The last argument for a name counts, all other names
keep what the configuration given says. -/
def C156_full : Prop :=
  ∀ (eval : List Char → Except Err Nat) (asDict : Nat → Option (PyDict Name Nat)) (conf : Obj Nat) (l : List (Name × List Char)),
    (∀ p ∈ l, Ordinary p.1 ∧ '=' ∉ p.1 ∧ p.1 ∉ conf.consts ∧ ∃ v, eval p.2 = .ok v) →
    ∃ c, loadCmd eval asDict conf (some (l.map fun p => argument p.1 p.2)) = .ok c ∧
      ∀ k, c.data.get? k = ((lastText k l).bind fun t => (eval t).toOption).or (conf.data.get? k)

/-- C156, what holds: texts without the sign "=". -/
theorem C156_cmd_partial (eval : List Char → Except Err V) (asDict : V → Option (PyDict Name V)) (conf : Obj V) (l : List (Name × List Char))
    (h : ∀ p ∈ l, Ordinary p.1 ∧ '=' ∉ p.1 ∧ p.1 ∉ conf.consts ∧ ∃ v, eval p.2 = .ok v) (ht : ∀ p ∈ l, '=' ∉ p.2) :
    ∃ c, loadCmd eval asDict conf (some (l.map fun p => argument p.1 p.2)) = .ok c ∧ c.consts = conf.consts ∧
      ∀ k, c.data.get? k = ((lastText k l).bind fun t => (eval t).toOption).or (conf.data.get? k) := by
  obtain ⟨d, h1, h2, h3, h4⟩ := parseAll_get eval l [] (by simp [PyDict.WF, PyDict.keys]) (fun p hp => ⟨(h p hp).2.1, ht p hp, (h p hp).2.2.2⟩)
  have hk : ∀ k ∈ d.keys, ∃ p ∈ l, p.1 = k := by
    intro k hk
    rcases h4 k hk with h' | h'
    · cases h'
    · exact List.mem_map.1 h'
  obtain ⟨c, e1, e2, e3⟩ := mergeDict_get asDict conf d h2
    (fun k hk' => by obtain ⟨p, hp, rfl⟩ := hk k hk'; exact (h p hp).1) (fun k hk' => by obtain ⟨p, hp, rfl⟩ := hk k hk'; exact (h p hp).2.2.1)
  refine ⟨c, ?_, e2, ?_⟩
  · simp only [loadCmd, Option.getD_some, h1, e1]
  · intro k
    rw [e3 k, merged, h3 k]
    simp only [PyDict.get?_nil, Option.or_none]
    rfl

/-- No argument changes nothing. -/
theorem C156_none (eval : List Char → Except Err V) (asDict : V → Option (PyDict Name V)) (conf : Obj V) :
    loadCmd eval asDict conf none = .ok conf := rfl

/-- Every value whose text contains "=" is refused, whatever stands before and after it. -/
theorem C156_violated_sign (eval : List Char → Except Err V) (asDict : V → Option (PyDict Name V)) (conf : Obj V) (n t : List Char) (hn : '=' ∉ n)
    (ht : '=' ∈ t) (rest : List (List Char)) : loadCmd eval asDict conf (some (argument n t :: rest)) = .error .value := by
  simp only [loadCmd, Option.getD_some, parseAll, parse_bad eval n t hn ht]

/-- C156 does not hold: `--conf d=dict(a=1)`. -/
theorem C156_violated : ¬ C156_full := by
  intro h
  obtain ⟨c, hc, -⟩ := h (fun _ => .ok 1) (fun _ => none) (mk []) [(['d'], "dict(a=1)".toList)]
    (by simp only [List.mem_singleton]; rintro p rfl; exact ⟨by decide, by decide, by decide, 1, rfl⟩)
  simp only [List.map_cons, List.map_nil] at hc
  rw [C156_violated_sign _ _ _ _ _ (by decide) (by decide)] at hc
  cases hc

/-- Two arguments for one name, one for a name of the configuration. -/
example : (loadCmd (fun t => .ok t.length) (fun _ => none) (mk [(['a'], 10), (['b'], 20)]) (some ["a=1".toList, "c=12".toList, "a=345".toList])).map
    (fun c => c.data) = .ok [(['a'], 3), (['b'], 20), (['c'], 2)] := by decide

/-! ### C157: files -/

/-- C157, full statement: what `save_config` has written without an error is loaded again, the values being the same; after an error the file still holds
what it held before. -/
def C157_full : Prop :=
  ∀ (data : PyDict Name Py) (old : File), data.WF → (∀ k ∈ data.keys, Ordinary k) →
    ((saveFile data old).2 = .ok () → ∃ c, loadFile (saveFile data old).1 (mk []) = .ok c ∧
      ∀ k p, (c.data.get? k).bind (look · p) = (data.get? k).bind (look · p)) ∧
    ((saveFile data old).2 ≠ .ok () → (saveFile data old).1 = old)

/-- C157, what holds: values without tuples and foreign objects, whose dictionaries have strings as keys. Missing are tuples, dictionaries with other keys,
and the contents of the file after an error. -/
theorem C157_roundtrip_partial (data : PyDict Name Py) (old : File) (hd : data.WF) (ho : ∀ k ∈ data.keys, Ordinary k)
    (hp : ∀ p ∈ data, plain p.2 = true) :
    (saveFile data old).2 = .ok () ∧ ∃ c, loadFile (saveFile data old).1 (mk []) = .ok c ∧
      ∀ k p, (c.data.get? k).bind (look · p) = (data.get? k).bind (look · p) := by
  have hpl : plain (.dict (data.map fun p => (Key.str p.1, p.2))) = true := by
    rw [plain, Bool.and_eq_true, decide_eq_true_eq]
    exact ⟨keys_str_nodup data hd, plainItems_map data hp⟩
  obtain ⟨j, e, hs⟩ := dump_load _ hpl
  have hsave : saveFile data old = (.json j, .ok ()) := by simp only [saveFile, e]
  refine ⟨by rw [hsave], ?_⟩
  obtain ⟨l, rfl⟩ := dump_dict e
  obtain ⟨d, m, h1, h2, h3, h4⟩ := load_obj l
  have hlook : ∀ k p, (m.get? k).bind (look · p) = (data.get? k).bind (look · p) := by
    intro k p
    have := hs (.key (.str k) :: p)
    rw [h1] at this
    simp only [look, child, get?_map_str] at this
    rw [h4 k]
    cases h5 : PyDict.get? d (.str k) <;> cases h6 : PyDict.get? data k <;> simp_all
  have hkeys : ∀ k ∈ m.keys, k ∈ data.keys := by
    intro k hk
    rw [← PyDict.get?_isSome_iff] at hk ⊢
    have := hlook k []
    cases h5 : PyDict.get? m k <;> cases h6 : PyDict.get? data k <;> simp_all [look]
  obtain ⟨c, c1, -, c3⟩ := mergeDict_get asDict (mk []) m h3 (fun k hk => ho k (hkeys k hk)) (fun k _ h => by cases h)
  refine ⟨c, ?_, ?_⟩
  · rw [hsave]
    simp only [loadFile, h1, h2, c1]
  · intro k p
    rw [c3 k, merged, ← hlook k p]
    simp [mk]

/-- A tuple comes back as a list. -/
theorem C157_violated_tuple (l : List Py) (h : plainList l = true) : ∃ j, dump (.tuple l) = .ok j ∧ ¬ Same (load j) (.tuple l) ∧ Same (load j) (.list l) := by
  obtain ⟨js, e, s⟩ := dumpList_load l h
  refine ⟨.arr js, by rw [dump, e], ?_, ?_⟩
  · intro hs
    have := hs []
    simp [load, look, head] at this
  · rw [load]
    exact Same_list s

/-- The key 1 comes back as the key "1". -/
theorem C157_violated_key (v : Py) (h : plain v = true) : ∃ j, dump (.dict [(.int 1, v)]) = .ok j ∧ child (load j) (.key (.int 1)) = none ∧
    child (load j) (.key (.str ['1'])) ≠ none := by
  obtain ⟨j, e, s⟩ := dump_load v h
  refine ⟨.obj [(['1'], j)], ?_, ?_, ?_⟩
  · simp only [dump, dumpItems, e]
    rfl
  · simp [load, loadItems, child, PyDict.set, PyDict.mem, PyDict.get?]
  · simp [load, loadItems, child, PyDict.set, PyDict.mem, PyDict.get?]

/-- An error while saving destroys a file that was there: it cannot be loaded any more. -/
theorem C157_violated_lost (data : PyDict Name Py) (j : Json) (k : Name) (h : (k, Py.other) ∈ data) (conf : Obj Py) :
    (saveFile data (.json j)).2 = .error .type ∧ loadFile (saveFile data (.json j)).1 conf = .error .value := by
  have : dumpItems (data.map fun p => (Key.str p.1, p.2)) = .error .type := by
    apply dumpItems_other
    exact List.mem_map.2 ⟨_, h, rfl⟩
  simp only [saveFile, dump, this, loadFile, and_self]

/-- C157: saving raises exactly if JSON cannot express some value, always a `TypeError`; the file is then broken, whatever it held. -/
theorem C157_error_partial (data : PyDict Name Py) (old : File) :
    ((∀ p ∈ data, Writable p.2) → ∃ j, saveFile data old = (.json j, .ok ())) ∧
    ((∃ p ∈ data, ¬ Writable p.2) → saveFile data old = (.broken, .error .type)) := by
  have hi : ∀ l : PyDict Name Py, WritableItems (l.map fun p => (Key.str p.1, p.2)) ↔ ∀ p ∈ l, Writable p.2 := by
    intro l
    induction l with
    | nil => simp [WritableItems]
    | cons q l ih => simp [WritableItems, ih]
  have hw : Writable (.dict (data.map fun p => (Key.str p.1, p.2))) ↔ ∀ p ∈ data, Writable p.2 := by
    rw [Writable, hi]
    refine ⟨And.right, fun h => ⟨?_, h⟩⟩
    simp only [List.forall_mem_map]
    intro a _ b _
    trivial
  constructor
  · intro h
    rcases dump_cases (.dict (data.map fun p => (Key.str p.1, p.2))) with ⟨-, j, e⟩ | ⟨h', -⟩
    · exact ⟨j, by simp only [saveFile, e]⟩
    · exact absurd (hw.2 h) h'
  · rintro ⟨p, hp, hn⟩
    rcases dump_cases (.dict (data.map fun p => (Key.str p.1, p.2))) with ⟨h', -⟩ | ⟨-, e⟩
    · exact absurd (hw.1 h' p hp) hn
    · simp only [saveFile, e]

/-- Both cases occur: a tuple is written, a dictionary with the keys "a" and 1 is not. -/
example : Writable (.tuple [.int 1, .dict [(.int 1, .none), (.bool false, .none)]]) ∧ ¬ Writable (.dict [(.str ['a'], .none), (.int 1, .none)]) := by
  simp [Writable, WritableList, WritableItems, Comparable]

/-- C157: a dictionary is written in the order of its keys, `False` and `True` among the numbers as 0 and 1; every key is written once, with its value. -/
theorem C157_sorted_partial (d : List (Key × Py)) (js : List (List Char × Json)) (h : dump (.dict d) = .ok (.obj js)) :
    ∃ ks : List (Key × Json), js = ks.map (fun q => (q.1.text, q.2)) ∧ ks.Pairwise (fun p q => Before p.1 q.1) ∧
      (ks.map (·.1)).Perm (d.map (·.1)) ∧ ∀ q ∈ ks, ∃ v, (q.1, v) ∈ d ∧ dump v = .ok q.2 := by
  rw [dump] at h
  cases hd : dumpItems d with
  | error e => simp [hd] at h
  | ok l =>
    simp only [hd] at h
    by_cases hs : sortable l = true
    · rw [if_pos hs] at h
      simp only [Except.ok.injEq, Json.obj.injEq] at h
      subst h
      obtain ⟨h1, h2⟩ := dumpItems_keys d l hd
      refine ⟨sortKeys l, rfl, sortable_sorted l hs, ?_, fun q hq => h2 q ((sortKeys_perm l).mem_iff.1 hq)⟩
      rw [← h1]
      exact (sortKeys_perm l).map _
    · rw [if_neg hs] at h
      cases h

example : dump (.dict [(.int 2, .none), (.bool true, .none), (.int 0, .none)]) =
    .ok (.obj [(['0'], .null), (['t', 'r', 'u', 'e'], .null), (['2'], .null)]) := by rfl

/-- C157 does not hold. -/
theorem C157_violated : ¬ C157_full := by
  intro h
  have := (h [(['a'], .other)] .missing (by simp [PyDict.WF, PyDict.keys]) (by decide)).2
  have h2 := (C157_violated_lost [(['a'], .other)] .null ['a'] (by simp) (mk [])).1
  simp only [saveFile, dump, dumpItems, List.map_cons, List.map_nil] at this
  exact absurd (this (by simp)) (by simp)

/-- A nested value that is plain. -/
example : plain (.dict [(.str ['b'], .list [.int 1, .none]), (.str ['a'], .dict [])]) = true := by decide

example : dump (.dict [(.str ['b'], .list [.int 1, .none]), (.str ['a'], .str ['x'])]) =
    .ok (.obj [(['a'], .str ['x']), (['b'], .arr [.num 1, .null])]) := by rfl

/-- Keys that cannot be compared. -/
example : dump (.dict [(.str ['b'], .none), (.int 1, .none)]) = .error .type := by rfl

end Machin.Config
