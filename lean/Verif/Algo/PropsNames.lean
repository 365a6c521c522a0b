import Verif.Algo.NamesLemmas

/-!
# C256, C257: what names in configurations stand for

C256: a model, optimizer or scheduler may be given by "a string name of a global defined class in any frame of your call stack" (the messages in utils.py:222-229, 248-257). In the code
the outermost frame that has the name decides alone, so any other global of this name further out hides the class, and names that begin with two underscores are never found.

C257: it may be given by "a string name of a importable class, eg: foo.baz.model". In the code only the first component is imported, so a class in a submodule is found only if something
else has loaded the submodule.
-/

namespace Machin.Algo

/-- The meanings of a name along the stack, the innermost first. -/
def meanings (frames : List (PyDict String PObj)) (k : String) : List PObj := frames.filterMap fun f => f.get? k

/-- C256 in full, for models: a class of the right kind in any frame can be given by its name. -/
def C256_full : Prop :=
  ∀ (torch : String → Option PObj) (frames : List (PyDict String PObj)) (s : Modules) (k : String), (∀ f ∈ frames, f.WF) →
    (∃ id, .cls true id ∈ meanings frames k) → ∃ id, validModel (stackEnv torch frames s) (.str k) = .ok (.cls true id) ∧ .cls true id ∈ meanings frames k

/-- What the code takes a name to mean: the meaning in the outermost frame that has it; nothing if it begins with two underscores. -/
theorem C256_outermost_partial (frames : List (PyDict String PObj)) (hw : ∀ f ∈ frames, f.WF) (k : String) :
    (globalsFromStack frames).get? k = if underscored k then none else (meanings frames k).getLast? := by
  unfold globalsFromStack meanings
  rw [stack_get frames [] hw k]
  simp

/-- The names that are never found are those whose first two characters are underscores; all others are found, in the outermost frame that has them. -/
theorem C256_names_partial (frames : List (PyDict String PObj)) (hw : ∀ f ∈ frames, f.WF) (k : String) :
    ((∃ cs, k.toList = '_' :: '_' :: cs) → (globalsFromStack frames).get? k = none) ∧
    ((¬ ∃ cs, k.toList = '_' :: '_' :: cs) → (globalsFromStack frames).get? k = (meanings frames k).getLast?) := by
  rw [← underscored_iff, C256_outermost_partial frames hw k]
  cases underscored k <;> simp

example : (globalsFromStack [[("_a", .other 1), ("__b", .other 2)], [("_", .other 3)]]).get? "_a" = some (.other 1) := by decide +kernel

/-- C256, what holds: a name without dot gives a model exactly if it does not begin with two underscores and its outermost meaning is a class of models,
and then it gives this class. -/
theorem C256_exact_partial (torch : String → Option PObj) (frames : List (PyDict String PObj)) (s : Modules) (k : String) (hw : ∀ f ∈ frames, f.WF)
    (hd : '.' ∉ k.toList) (o : PObj) :
    validModel (stackEnv torch frames s) (.str k) = .ok o ↔ underscored k = false ∧ (meanings frames k).getLast? = some o ∧ ∃ id, o = .cls true id := by
  have hdot : (stackEnv torch frames s).dotted k = false := by simp [stackEnv, hd]
  have hg : (stackEnv torch frames s).globals k = if underscored k then none else (meanings frames k).getLast? := C256_outermost_partial frames hw k
  simp only [validModel, hdot, hg]
  cases hu : underscored k with
  | true => simp
  | false =>
    simp only [Bool.false_eq_true, if_false, true_and]
    cases hm : (meanings frames k).getLast? with
    | none => simp
    | some g =>
      cases g with
      | cls b id =>
        cases b with
        | true =>
          simp only [issubclass, Except.ok.injEq, Option.some.injEq]
          constructor
          · rintro rfl; exact ⟨rfl, id, rfl⟩
          · rintro ⟨h, -⟩; exact h
        | false =>
          simp only [issubclass, Option.some.injEq]
          constructor
          · intro h; cases h
          · rintro ⟨rfl, id', h⟩; cases h
      | _ =>
        simp only [issubclass, Option.some.injEq]
        constructor
        · intro h; cases h
        · rintro ⟨rfl, id', h⟩; cases h

/-- C256, what holds: if all frames that have the name mean classes of models, the class of the outermost one is found, with or without dots. -/
theorem C256_agreed_partial (torch : String → Option PObj) (frames : List (PyDict String PObj)) (s : Modules) (k : String) (hw : ∀ f ∈ frames, f.WF)
    (hu : underscored k = false) (hne : meanings frames k ≠ []) (hall : ∀ o ∈ meanings frames k, ∃ id, o = .cls true id) :
    ∃ id, validModel (stackEnv torch frames s) (.str k) = .ok (.cls true id) ∧ (meanings frames k).getLast? = some (.cls true id) := by
  obtain ⟨id, hid⟩ := hall _ (List.getLast_mem hne)
  have hl : (meanings frames k).getLast? = some (.cls true id) := by rw [List.getLast?_eq_some_getLast hne, hid]
  have hg : (stackEnv torch frames s).globals k = some (.cls true id) := by
    show (globalsFromStack frames).get? k = _
    rw [C256_outermost_partial frames hw k, hu, hl]
    rfl
  exact ⟨id, by simp only [validModel, hg, issubclass], hl⟩

/-- C256 is violated whenever a frame further out has the name for something that is no class of models: `TypeError` if it is no class at all, and
`ValueError` if it is another class and the name has no dot, whatever the frames inside define. -/
theorem C256_violated_hidden (torch : String → Option PObj) (inside : List (PyDict String PObj)) (outer : PyDict String PObj) (s : Modules) (k : String)
    (hw : ∀ f ∈ inside ++ [outer], f.WF) (hu : underscored k = false) (g : PObj) (hg : outer.get? k = some g) :
    ((∀ b id, g ≠ .cls b id) → validModel (stackEnv torch (inside ++ [outer]) s) (.str k) = .error .type) ∧
    ((∃ id, g = .cls false id) → '.' ∉ k.toList → validModel (stackEnv torch (inside ++ [outer]) s) (.str k) = .error .value) := by
  have hl : (stackEnv torch (inside ++ [outer]) s).globals k = some g := by
    show (globalsFromStack (inside ++ [outer])).get? k = _
    rw [C256_outermost_partial _ hw k, hu]
    simp [meanings, hg]
  constructor
  · intro h
    simp only [validModel, hl]
    cases g with
    | cls b id => exact absurd rfl (h b id)
    | _ => rfl
  · rintro ⟨id, rfl⟩ hd
    have hdot : (stackEnv torch (inside ++ [outer]) s).dotted k = false := by simp [stackEnv, hd]
    simp only [validModel, hl, issubclass, hdot]
    rfl

/-- C256 is violated by every name that begins with two underscores: no frame matters. -/
theorem C256_violated_underscores (torch : String → Option PObj) (frames : List (PyDict String PObj)) (s : Modules) (k : String) (hw : ∀ f ∈ frames, f.WF)
    (hu : underscored k = true) (hd : '.' ∉ k.toList) :
    validModel (stackEnv torch frames s) (.str k) = .error .value ∧ (torch k = none → validClass (stackEnv torch frames s) (.str k) = .ok none) := by
  have hdot : (stackEnv torch frames s).dotted k = false := by simp [stackEnv, hd]
  have hl : (stackEnv torch frames s).globals k = none := by
    show (globalsFromStack frames).get? k = _
    rw [C256_outermost_partial frames hw k, hu]
    rfl
  refine ⟨by simp only [validModel, hl, hdot]; rfl, fun ht => ?_⟩
  have ht' : (stackEnv torch frames s).torch k = none := ht
  simp only [validClass, hl, ht', importOrNone, hdot]
  rfl

/-- C256 is violated: a script with a variable `Actor` calls a function of a module with a class `Actor`. -/
theorem C256_violated : ¬ C256_full := by
  intro h
  obtain ⟨id, h1, -⟩ := h (fun _ => none) [[("Actor", .cls true 0)], [("Actor", .other 1)]] ⟨[], fun _ => [], fun _ _ => none, fun _ _ => none, []⟩ "Actor"
    (by unfold PyDict.WF; decide +kernel) ⟨0, by decide +kernel⟩
  have h2 := (C256_violated_hidden (fun _ => none) [[("Actor", .cls true 0)]] [("Actor", .other 1)] ⟨[], fun _ => [], fun _ _ => none, fun _ _ => none, []⟩ "Actor"
    (by unfold PyDict.WF; decide +kernel) (by decide +kernel) (.other 1) (by decide +kernel)).1 (by simp)
  cases h1.symm.trans h2

/-- C256, for optimizers and schedulers: an entry of the module of torch comes before the stack; a class of the right kind that is the outermost meaning
is found otherwise. -/
theorem C256_class_partial (torch : String → Option PObj) (frames : List (PyDict String PObj)) (s : Modules) (k : String) (hw : ∀ f ∈ frames, f.WF) :
    (∀ o, torch k = some o → validClass (stackEnv torch frames s) (.str k) = .ok (some o)) ∧
    (∀ id, torch k = none → underscored k = false → (meanings frames k).getLast? = some (.cls true id) →
      validClass (stackEnv torch frames s) (.str k) = .ok (some (.cls true id))) := by
  constructor
  · intro o ho
    have : (stackEnv torch frames s).torch k = some o := ho
    simp only [validClass, this]
  · intro id ht hu hl
    have ht' : (stackEnv torch frames s).torch k = none := ht
    have hg : (stackEnv torch frames s).globals k = some (.cls true id) := by
      show (globalsFromStack frames).get? k = _
      rw [C256_outermost_partial frames hw k, hu, hl]
      rfl
    simp only [validClass, ht', hg, issubclass]

/-- Two modules with a class `Actor` of their own: the one of the script is taken. -/
example : validModel (stackEnv (fun _ => none) [[("Actor", .cls true 0)], [("x", .other 5), ("Actor", .cls true 1)], []]
    ⟨[], fun _ => [], fun _ _ => none, fun _ _ => none, []⟩) (.str "Actor") = .ok (.cls true 1) := by decide +kernel

/-! ### C257 -/

/-- The thing called `c` in the module at `path` can be imported: all modules on the path are on the disk and the last one binds the name. -/
def Importable (s : Modules) (path : List (List Char)) (c : List Char) (v : Thing) : Prop :=
  path ≠ [] ∧ (∀ q, q ≠ [] → q <+: path → q ∈ s.disk) ∧ (∀ p ∈ path ++ [c], p ≠ [] ∧ '.' ∉ p) ∧ s.binds path c = some v ∧
    ∀ q x, q ≠ [] → q ++ [x] <+: path → s.binds q x = none

/-- C257 in full: whatever can be imported is found under its dotted name. -/
def C257_full : Prop :=
  ∀ (s : Modules) (path : List (List Char)) (c : List Char) (v : Thing), Importable s path c v → (safeImport s (joinDot (path ++ [c]))).2 = .ok v

/-- C257, what holds, exactly: the thing is found if all modules below the top level one are loaded after the import of the top level one, and the call
raises `AttributeError` otherwise. -/
theorem C257_exact_partial (s : Modules) (top : List Char) (rest : List (List Char)) (c : List Char) (v : Thing) (h : Importable s (top :: rest) c v) :
    let after := if [top] ∈ s.loaded then s.loaded else s.loaded ++ [top] :: s.loads top
    ((∀ q, q ≠ [] → q <+: rest → top :: q ∈ after) → (safeImport s (joinDot (top :: rest ++ [c]))).2 = .ok v) ∧
    ((∃ q, q ≠ [] ∧ q <+: rest ∧ top :: q ∉ after) → (safeImport s (joinDot (top :: rest ++ [c]))).2 = .error .attribute) := by
  intro after
  obtain ⟨-, hdisk, hn, hv, hb⟩ := h
  have htop : top ≠ [] := (hn top (by simp)).1
  have hsplit : splitDot (joinDot (top :: rest ++ [c])) = top :: (rest ++ [c]) := by
    rw [splitDot_join _ (by simp) (fun p hp => (hn p hp).2)]
    rfl
  have himp : s.importTop top = ({ s with loaded := after }, .ok (.module_ [top])) := by
    unfold Modules.importTop
    rw [if_neg htop]
    by_cases hl : [top] ∈ s.loaded
    · rw [if_pos hl]; simp [after, hl]
    · rw [if_neg hl, if_pos (hdisk [top] (by simp) (by simp))]; simp [after, hl]
  have hw := walk_path { s with loaded := after } c v rest [top] (fun q x hq => by
    have := hb (top :: q) x (by simp) (by simpa using hq)
    simpa using this) (by simpa using hv)
  simp only [safeImport, hsplit, himp]
  exact hw

/-- C257, what holds: a thing in a top level module is always found. -/
theorem C257_top_partial (s : Modules) (top c : List Char) (v : Thing) (h : Importable s [top] c v) : (safeImport s (joinDot [top, c])).2 = .ok v :=
  (C257_exact_partial s top [] c v h).1 fun q hq hp => absurd (List.prefix_nil.1 hp) hq

/-- C257 is violated for every submodule that neither has been loaded nor is loaded by its package. -/
theorem C257_violated_submodule (s : Modules) (top sub c : List Char) (v : Thing) (h : Importable s [top, sub] c v) (h1 : [top, sub] ∉ s.loaded)
    (h2 : [top, sub] ∉ s.loads top) : (safeImport s (joinDot [top, sub, c])).2 = .error .attribute := by
  refine (C257_exact_partial s top [sub] c v h).2 ⟨[sub], by simp, List.prefix_refl _, ?_⟩
  split
  · exact h1
  · simp [h1, h2]

/-- A package `foo` with a module `baz` that has a class `m`. -/
def fooBaz : Modules := ⟨[[['f', 'o', 'o']], [['f', 'o', 'o'], ['b', 'a', 'z']]], fun _ => [],
  fun p c => if p = [['f', 'o', 'o'], ['b', 'a', 'z']] ∧ c = ['m'] then some (.obj (.cls true 0)) else none, fun _ _ => none, []⟩

theorem fooBaz_importable : Importable fooBaz [['f', 'o', 'o'], ['b', 'a', 'z']] ['m'] (.obj (.cls true 0)) := by
  refine ⟨by simp, ?_, by decide, by decide, ?_⟩
  · rintro q hq hp
    cases q with
    | nil => exact absurd rfl hq
    | cons a q =>
      obtain ⟨rfl, hp1⟩ := List.cons_prefix_cons.1 hp
      cases q with
      | nil => decide
      | cons b q =>
        obtain ⟨rfl, hp2⟩ := List.cons_prefix_cons.1 hp1
        rw [List.prefix_nil.1 hp2]
        decide
  · intro q x hq hp
    have hl := hp.length_le
    simp only [List.length_append, List.length_cons, List.length_nil] at hl
    have : q.length = 1 := by
      have : q.length ≠ 0 := fun h => hq (List.length_eq_zero_iff.1 h)
      omega
    simp only [fooBaz]
    rw [if_neg]
    rintro ⟨rfl, -⟩
    simp at this

/-- C257 is violated by the example of the message, `foo.baz.m`. -/
theorem C257_violated : ¬ C257_full := by
  intro h
  have h1 := h fooBaz _ _ _ fooBaz_importable
  rw [show [['f', 'o', 'o'], ['b', 'a', 'z']] ++ [['m']] = [['f', 'o', 'o'], ['b', 'a', 'z'], ['m']] from rfl,
    C257_violated_submodule fooBaz _ _ _ _ fooBaz_importable (by decide) (by decide)] at h1
  cases h1

/-- C257 is violated: whether the same name is found depends on what was loaded before. -/
theorem C257_violated_history : (safeImport fooBaz "foo.baz.m".toList).2 = .error .attribute ∧
    (safeImport { fooBaz with loaded := [[['f', 'o', 'o']], [['f', 'o', 'o'], ['b', 'a', 'z']]] } "foo.baz.m".toList).2 = .ok (.obj (.cls true 0)) := by
  decide +kernel

/-- C257: a top level module that is neither loaded nor on the disk raises `ModuleNotFoundError` and loads nothing; an empty first component raises
`ValueError`. -/
theorem C257_missing_partial (s : Modules) (l : List Char) (top : List Char) (rest : List (List Char)) (hs : splitDot l = top :: rest) :
    ([top] ∉ s.loaded → [top] ∉ s.disk → top ≠ [] → safeImport s l = (s, .error (.other 1))) ∧ (top = [] → safeImport s l = (s, .error .value)) := by
  constructor
  · intro h1 h2 h3
    simp [safeImport, hs, Modules.importTop, h1, h2, h3]
  · rintro rfl
    simp [safeImport, hs, Modules.importTop]

/-- C257: nothing but the top level module and what it loads is ever loaded. -/
theorem C257_loads_partial (s : Modules) (l : List Char) :
    (safeImport s l).1 = s ∨ ∃ top, (splitDot l).head? = some top ∧ [top] ∈ s.disk ∧ (safeImport s l).1 = { s with loaded := s.loaded ++ [top] :: s.loads top } := by
  cases hs : splitDot l with
  | nil => exact absurd hs (splitDot_ne l)
  | cons top rest =>
    have hi : s.importTop top = ((s.importTop top).1, (s.importTop top).2) := rfl
    have hfst : (safeImport s l).1 = (s.importTop top).1 := by
      unfold safeImport
      rw [hs]
      dsimp only
      split
      · next s' e h => rw [h]
      · next s' t h => rw [h]
    rw [hfst]
    unfold Modules.importTop
    by_cases h0 : top = []
    · rw [if_pos h0]; exact .inl rfl
    · rw [if_neg h0]
      by_cases h1 : [top] ∈ s.loaded
      · rw [if_pos h1]; exact .inl rfl
      · rw [if_neg h1]
        by_cases h2 : [top] ∈ s.disk
        · rw [if_pos h2]; exact .inr ⟨top, rfl, h2, rfl⟩
        · rw [if_neg h2]; exact .inl rfl

/-- C257: the parts of a name are what stands between its dots. -/
theorem C257_parts (l : List Char) (ps : List (List Char)) : splitDot l = ps ↔ ps ≠ [] ∧ (∀ p ∈ ps, '.' ∉ p) ∧ joinDot ps = l := by
  constructor
  · rintro rfl
    exact ⟨splitDot_ne l, (join_splitDot l).2, (join_splitDot l).1⟩
  · rintro ⟨h1, h2, rfl⟩
    exact splitDot_join ps h1 h2

/-- C257: what a dotted name gives is used unchecked, a model or not. -/
theorem C257_unchecked_partial (torch : String → Option PObj) (frames : List (PyDict String PObj)) (s : Modules) (k : String) (hw : ∀ f ∈ frames, f.WF)
    (hd : '.' ∈ k.toList) (hm : meanings frames k = []) (o : PObj) (ho : (safeImport s k.toList).2 = .ok (.obj o)) :
    validModel (stackEnv torch frames s) (.str k) = .ok o := by
  have hdot : (stackEnv torch frames s).dotted k = true := by simp [stackEnv, hd]
  have hl : (stackEnv torch frames s).globals k = none := by
    show (globalsFromStack frames).get? k = _
    rw [C256_outermost_partial frames hw k, hm]
    simp
  simp only [validModel, hl, hdot, if_true]
  simp only [stackEnv, ho]

/-- A function of the standard library as a model. -/
example : validModel (stackEnv (fun _ => none) [] ⟨[[['o', 's']]], fun _ => [], fun _ c => if c = ['g'] then some (.obj (.callable 3)) else none, fun _ _ => none, []⟩)
    (.str "os.g") = .ok (.callable 3) := by decide +kernel

end Machin.Algo
