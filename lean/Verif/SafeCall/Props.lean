import Verif.SafeCall.Model
import Mathlib.Data.List.Nodup
import Mathlib.Data.List.Induction

/-!
# C64, C82: calling models with dictionaries

C64: `safe_call` passes exactly those entries of the given dictionaries that `forward` accepts (of entries with the same name the last
one), and raises `RuntimeError` when an argument without default is missing. **The code violates it** in three ways: with keyword-only
arguments the wrong arguments count as having defaults, so an argument with a default is demanded, or a missing one is not noticed; with
`*args` but no `**kwargs` entries that `forward` does not accept are passed.
C82: the compiled call `_jit_safe_call` gives the model the arguments `safe_call` gives it, arguments left out keep their defaults.
**Violated**: they are passed as `None`.
-/

namespace Machin.SafeCall

/-! ### Independent specification -/

/-- The entry the dictionaries give for a name: the last one. -/
def given {V : Type} (dicts : List (PyDict String V)) (k : String) : Option V := (dicts.flatten.reverse.find? fun p => p.1 = k).map (·.2)

/-- Names `forward` accepts as keywords. -/
def Accepts (s : ArgSpec) (k : String) : Prop := k ∈ s.args ∨ k ∈ s.kwonly ∨ s.varkw = true

/-- Arguments without default. -/
def Needs (s : ArgSpec) (k : String) : Prop :=
  (∃ i, s.args[i]? = some k ∧ i + s.nDefaults < s.args.length) ∨ (k ∈ s.kwonly ∧ k ∉ s.kwdefaults)

/-- C64 in full. -/
def C64_full : Prop :=
  ∀ (s : ArgSpec) (dicts : List (PyDict String Nat)), s.Valid →
    ((∀ k, Needs s k → (given dicts k).isSome) →
      ∃ d, safeCall s dicts = .ok d ∧ ∀ k v, d.get? k = some v ↔ Accepts s k ∧ given dicts k = some v) ∧
    ((∃ k, Needs s k ∧ given dicts k = none) → safeCall s dicts = .error .runtime)

/-! ### Lemmas -/

theorem inner_get {V : Type} (f : String → Bool) (d acc : PyDict String V) (k : String) :
    (d.foldl (fun acc p => if f p.1 then acc.set p.1 p.2 else acc) acc).get? k =
      if f k then ((d.reverse.find? fun p => p.1 = k).map (·.2)).or (acc.get? k) else acc.get? k := by
  induction d using List.reverseRecOn generalizing acc with
  | nil => simp
  | append_singleton d p ih =>
    rw [List.foldl_append]
    simp only [List.foldl_cons, List.foldl_nil, List.reverse_append, List.reverse_cons, List.reverse_nil, List.nil_append,
      List.cons_append, List.find?_cons]
    by_cases hf : f p.1
    · rw [if_pos hf, PyDict.get?_set]
      by_cases hk : k = p.1
      · subst hk
        simp [hf]
      · rw [if_neg hk, ih]
        have : ¬ p.1 = k := fun h => hk h.symm
        simp [this]
    · rw [if_neg hf, ih]
      by_cases hk : p.1 = k
      · subst hk
        simp [hf]
      · simp [hk]

theorem fold_get {V : Type} (f : String → Bool) (dicts : List (PyDict String V)) (acc : PyDict String V) (k : String) :
    (dicts.foldl (fun acc d => d.foldl (fun acc p => if f p.1 then acc.set p.1 p.2 else acc) acc) acc).get? k =
      if f k then (given dicts k).or (acc.get? k) else acc.get? k := by
  induction dicts generalizing acc with
  | nil => simp [given]
  | cons d ds ih =>
    rw [List.foldl_cons, ih, inner_get]
    unfold given
    by_cases hf : f k
    · simp only [hf, if_true, List.flatten_cons, List.reverse_append, List.find?_append]
      cases List.find? (fun p => decide (p.1 = k)) ds.flatten.reverse <;> simp
    · simp [hf]

theorem fill_get {V : Type} (s : ArgSpec) (dicts : List (PyDict String V)) (k : String) :
    (fill s dicts).get? k = if admits s k then given dicts k else none := by
  unfold fill
  rw [fold_get]
  simp

theorem mem_get {V : Type} (d : PyDict String V) (k : String) : d.mem k = (d.get? k).isSome := by
  rw [Bool.eq_iff_iff, PyDict.mem_iff, PyDict.get?_isSome_iff]

theorem needs_args (s : ArgSpec) (k : String) :
    (∃ i, s.args[i]? = some k ∧ i + s.nDefaults < s.args.length) ↔ k ∈ s.args.take (s.args.length - s.nDefaults) := by
  rw [List.mem_take_iff_getElem]
  constructor
  · rintro ⟨i, hi, hlt⟩
    obtain ⟨h, rfl⟩ := List.getElem?_eq_some_iff.mp hi
    exact ⟨i, by omega, rfl⟩
  · rintro ⟨i, hi, rfl⟩
    exact ⟨i, List.getElem?_eq_getElem _, by omega⟩

theorem admits_needs (s : ArgSpec) (k : String) (h : Needs s k) : admits s k = true := by
  unfold admits allArgs
  have : k ∈ s.args ++ s.kwonly := by
    rw [List.mem_append]
    rcases h with ⟨i, hi, _⟩ | h
    · exact .inl (List.mem_of_getElem? hi)
    · exact .inr h.1
  rw [List.contains_iff_mem.mpr this]
  rfl

/-- Python's own check: the call succeeds iff only accepted keywords are given and nothing needed is missing. -/
theorem pyCall_ok {V : Type} (s : ArgSpec) (d e : PyDict String V) :
    pyCall s d = .ok e ↔ e = d ∧ (∀ k, (d.get? k).isSome → Accepts s k) ∧ ∀ k, Needs s k → (d.get? k).isSome := by
  unfold pyCall
  have c1 : (!s.varkw && d.keys.any (fun k => !(s.args ++ s.kwonly).contains k)) = false ↔ ∀ k, (d.get? k).isSome → Accepts s k := by
    rw [Bool.and_eq_false_iff]
    constructor
    · rintro (h | h) k hk
      · right; right; simpa using h
      · rw [List.any_eq_false] at h
        have := h k ((PyDict.get?_isSome_iff d k).mp hk)
        simp at this
        unfold Accepts
        tauto
    · intro h
      by_cases hv : s.varkw = true
      · left; simp [hv]
      · right
        rw [List.any_eq_false]
        intro k hk
        have := h k ((PyDict.get?_isSome_iff d k).mpr hk)
        unfold Accepts at this
        simp
        tauto
  have c2 : (s.args.take (s.args.length - s.nDefaults)).any (fun a => !d.mem a) = false ↔
      ∀ k ∈ s.args.take (s.args.length - s.nDefaults), (d.get? k).isSome := by
    rw [List.any_eq_false]
    simp [mem_get, Option.isSome_iff_ne_none]
  have c3 : s.kwonly.any (fun a => !s.kwdefaults.contains a && !d.mem a) = false ↔
      ∀ k ∈ s.kwonly, k ∉ s.kwdefaults → (d.get? k).isSome := by
    rw [List.any_eq_false]
    simp [mem_get, Option.isSome_iff_ne_none]
  by_cases h1 : (!s.varkw && d.keys.any (fun k => !(s.args ++ s.kwonly).contains k)) = true
  · rw [if_pos h1]
    constructor
    · intro h; cases h
    · rintro ⟨_, h2, _⟩; rw [c1.mpr h2] at h1; cases h1
  rw [if_neg h1]
  by_cases h2 : (s.args.take (s.args.length - s.nDefaults)).any (fun a => !d.mem a) = true
  · rw [if_pos h2]
    constructor
    · intro h; cases h
    · rintro ⟨_, _, h3⟩
      rw [c2.mpr (fun k hk => h3 k (.inl ((needs_args s k).mpr hk)))] at h2
      cases h2
  rw [if_neg h2]
  by_cases h3 : s.kwonly.any (fun a => !s.kwdefaults.contains a && !d.mem a) = true
  · rw [if_pos h3]
    constructor
    · intro h; cases h
    · rintro ⟨_, _, h4⟩
      rw [c3.mpr (fun k hk hn => h4 k (.inr ⟨hk, hn⟩))] at h3
      cases h3
  rw [if_neg h3]
  simp only [Bool.not_eq_true] at h1 h2 h3
  constructor
  · intro h
    refine ⟨(Except.ok.inj h).symm, c1.mp h1, ?_⟩
    rintro k (hk | ⟨hk, hn⟩)
    · exact c2.mp h2 k ((needs_args s k).mp hk)
    · exact c3.mp h3 k hk hn
  · rintro ⟨rfl, _⟩; rfl

/-- Which arguments `safe_call` demands when there are no keyword-only arguments, or no defaults. -/
theorem required_iff (s : ArgSpec) (hv : s.Valid) (h : s.kwonly = [] ∨ s.nDefaults = 0) (k : String) :
    k ∈ requiredArgs s ↔ Needs s k := by
  unfold requiredArgs withDefaults allArgs
  rw [List.mem_filter]
  simp only [Bool.and_eq_true, Bool.not_eq_true', List.contains_eq_mem, decide_eq_false_iff_not]
  unfold Needs
  rw [needs_args]
  rcases h with h | h
  · have hkd : s.kwdefaults = [] := List.eq_nil_iff_forall_not_mem.mpr fun k hk => by have := hv.kw k hk; rw [h] at this; cases this
    have hnd : s.args.Nodup := by have := hv.nodup; rw [h, List.append_nil] at this; exact this
    rw [h, hkd]
    simp only [List.append_nil, List.not_mem_nil, not_false_eq_true, and_true, or_false]
    have hsplit := List.take_append_drop (s.args.length - s.nDefaults) s.args
    have hdis : List.Disjoint (s.args.take (s.args.length - s.nDefaults)) (s.args.drop (s.args.length - s.nDefaults)) := by
      rw [← hsplit] at hnd
      exact List.disjoint_of_nodup_append hnd
    constructor
    · rintro ⟨h1, h2⟩
      rw [← hsplit, List.mem_append] at h1
      exact h1.resolve_right h2
    · intro h1
      exact ⟨List.take_subset _ _ h1, fun h2 => hdis h1 h2⟩
  · rw [h]
    simp only [Nat.sub_zero, List.drop_length, List.not_mem_nil, not_false_eq_true, true_and, List.take_length, List.mem_append]
    constructor
    · rintro ⟨h1 | h1, h2⟩
      · exact .inl h1
      · exact .inr ⟨h1, h2⟩
    · rintro (h1 | h1)
      · refine ⟨.inl h1, fun h2 => ?_⟩
        exact (List.disjoint_of_nodup_append hv.nodup) h1 (hv.kw k h2)
      · exact ⟨.inr h1.1, h1.2⟩

/-! ### C64 -/

/-- **C64** (partial, unconditional): whenever `safe_call` reaches the body of `forward`, the body sees exactly the accepted entries,
the last one of each name, and nothing needed is missing. -/
theorem C64_success_exact_partial {V : Type} (s : ArgSpec) (dicts : List (PyDict String V)) (d : PyDict String V)
    (h : safeCall s dicts = .ok d) :
    (∀ k v, d.get? k = some v ↔ Accepts s k ∧ given dicts k = some v) ∧ ∀ k, Needs s k → (given dicts k).isSome := by
  unfold safeCall at h
  simp only at h
  split at h
  · cases h
  · rw [pyCall_ok] at h
    obtain ⟨rfl, h1, h2⟩ := h
    refine ⟨?_, ?_⟩
    · intro k v
      rw [fill_get]
      constructor
      · intro hk
        refine ⟨h1 k ?_, ?_⟩
        · rw [fill_get, hk]; rfl
        · split at hk
          · exact hk
          · cases hk
      · rintro ⟨ha, hk⟩
        have : admits s k = true := by
          unfold admits allArgs
          rcases ha with ha | ha | ha
          · simp [ha]
          · simp [ha]
          · simp [ha]
        rw [if_pos this, hk]
    · intro k hk
      have := h2 k hk
      rw [fill_get, if_pos (admits_needs s k hk)] at this
      exact this

/-- **C64** (partial): the property holds when `forward` has no keyword-only arguments or no defaults of positional ones, and `*args`
comes with `**kwargs` (or all given names are arguments). Missing: the remaining signatures, see `C64_exact_partial`. -/
theorem C64_safe_call_partial {V : Type} (s : ArgSpec) (dicts : List (PyDict String V)) (hv : s.Valid)
    (hk : s.kwonly = [] ∨ s.nDefaults = 0)
    (hva : s.varargs = true → s.varkw = true ∨ ∀ k, (given dicts k).isSome → k ∈ s.args ∨ k ∈ s.kwonly) :
    ((∀ k, Needs s k → (given dicts k).isSome) →
      ∃ d, safeCall s dicts = .ok d ∧ ∀ k v, d.get? k = some v ↔ Accepts s k ∧ given dicts k = some v) ∧
    ((∃ k, Needs s k ∧ given dicts k = none) → safeCall s dicts = .error .runtime) := by
  refine ⟨?_, ?_⟩
  · intro hn
    have hc : safeCall s dicts = .ok (fill s dicts) := by
      unfold safeCall
      simp only
      rw [if_neg, pyCall_ok]
      · refine ⟨rfl, ?_, ?_⟩
        · intro k hk'
          rw [fill_get] at hk'
          split at hk'
          · next ha =>
            unfold admits allArgs at ha
            simp only [Bool.or_eq_true, List.contains_eq_mem, decide_eq_true_eq, List.mem_append] at ha
            rcases ha with ((ha | ha) | ha) | ha
            · exact .inl ha
            · exact .inr (.inl ha)
            · rcases hva ha with hvk | hall
              · exact .inr (.inr hvk)
              · rcases hall k hk' with h | h
                · exact .inl h
                · exact .inr (.inl h)
            · exact .inr (.inr ha)
          · cases hk'
        · intro k hk'
          rw [fill_get, if_pos (admits_needs s k hk')]
          exact hn k hk'
      · rw [List.any_eq_true]
        rintro ⟨k, hk', hm⟩
        have hneeds := (required_iff s hv hk k).mp hk'
        rw [mem_get, fill_get, if_pos (admits_needs s k hneeds), hn k hneeds] at hm
        cases hm
    exact ⟨_, hc, (C64_success_exact_partial s dicts _ hc).1⟩
  · rintro ⟨k, hk', hg⟩
    unfold safeCall
    simp only
    rw [if_pos]
    rw [List.any_eq_true]
    refine ⟨k, (required_iff s hv hk k).mpr hk', ?_⟩
    rw [mem_get, fill_get, if_pos (admits_needs s k hk'), hg]
    rfl

/-- The arguments `safe_call` demands: all but the last ones of positional and keyword-only arguments together, as many as positional arguments have defaults,
and but the keyword-only ones with defaults. -/
def Demands (s : ArgSpec) (k : String) : Prop :=
  ∃ i, (s.args ++ s.kwonly)[i]? = some k ∧ i + s.nDefaults < s.args.length + s.kwonly.length ∧ k ∉ s.kwdefaults

theorem required_demands (s : ArgSpec) (hv : s.Valid) (k : String) : k ∈ requiredArgs s ↔ Demands s k := by
  unfold requiredArgs withDefaults allArgs Demands
  rw [List.mem_filter]
  simp only [Bool.and_eq_true, Bool.not_eq_true', List.contains_eq_mem, decide_eq_false_iff_not]
  have hnd := hv.nodup
  generalize hl : s.args ++ s.kwonly = l at *
  have hlen : s.args.length + s.kwonly.length = l.length := by rw [← hl, List.length_append]
  rw [hlen]
  constructor
  · rintro ⟨h1, h2, h3⟩
    obtain ⟨i, hi, rfl⟩ := List.getElem_of_mem h1
    refine ⟨i, List.getElem?_eq_getElem hi, ?_, h3⟩
    refine Nat.lt_of_not_le fun hc => h2 ?_
    rw [List.mem_drop_iff_getElem]
    exact ⟨i - (l.length - s.nDefaults), by omega, by congr 1; omega⟩
  · rintro ⟨i, hi, hlt, h3⟩
    obtain ⟨hi', rfl⟩ := List.getElem?_eq_some_iff.mp hi
    refine ⟨List.getElem_mem hi', ?_, h3⟩
    rw [List.mem_drop_iff_getElem]
    rintro ⟨j, hj, he⟩
    have := (List.Nodup.getElem_inj_iff hnd).mp he
    omega

/-- **C64** (partial): what happens for every signature. A missing argument that `safe_call` demands is reported by it; otherwise Python raises `TypeError` if
an argument without default is missing all the same, or if a name that `forward` does not accept was passed on account of `*args`; otherwise the body sees
exactly the accepted entries. -/
theorem C64_exact_partial {V : Type} (s : ArgSpec) (dicts : List (PyDict String V)) (hv : s.Valid) :
    ((∃ k, Demands s k ∧ given dicts k = none) → safeCall s dicts = .error .runtime) ∧
    ((∀ k, Demands s k → (given dicts k).isSome) →
      ((∃ k, Needs s k ∧ given dicts k = none) ∨ (s.varargs = true ∧ ∃ k, (given dicts k).isSome ∧ ¬ Accepts s k)) → safeCall s dicts = .error .type) ∧
    ((∀ k, Demands s k → (given dicts k).isSome) → (∀ k, Needs s k → (given dicts k).isSome) →
      (s.varargs = true → ∀ k, (given dicts k).isSome → Accepts s k) →
      ∃ d, safeCall s dicts = .ok d ∧ ∀ k v, d.get? k = some v ↔ Accepts s k ∧ given dicts k = some v) := by
  have had : ∀ k, Demands s k → admits s k = true := by
    rintro k ⟨i, hi, -, -⟩
    unfold admits allArgs
    rw [List.contains_iff_mem.mpr (List.mem_of_getElem? hi)]
    rfl
  have hreq : (requiredArgs s).any (fun a => !(fill s dicts).mem a) = true ↔ ∃ k, Demands s k ∧ given dicts k = none := by
    rw [List.any_eq_true]
    constructor
    · rintro ⟨k, hk, hm⟩
      have hd := (required_demands s hv k).mp hk
      rw [mem_get, fill_get, if_pos (had k hd)] at hm
      exact ⟨k, hd, by simpa using hm⟩
    · rintro ⟨k, hd, hg⟩
      exact ⟨k, (required_demands s hv k).mpr hd, by rw [mem_get, fill_get, if_pos (had k hd), hg]; rfl⟩
  have hno : (∀ k, Demands s k → (given dicts k).isSome) → safeCall s dicts = pyCall s (fill s dicts) := by
    intro h
    unfold safeCall
    simp only
    rw [if_neg]
    rw [hreq]
    rintro ⟨k, hd, hg⟩
    have := h k hd
    rw [hg] at this
    cases this
  refine ⟨?_, ?_, ?_⟩
  · intro h
    unfold safeCall
    simp only
    rw [if_pos (hreq.mpr h)]
  · intro h hbad
    rw [hno h]
    have hok : ∀ e, pyCall s (fill s dicts) ≠ .ok e := by
      intro e he
      obtain ⟨-, h1, h2⟩ := (pyCall_ok s _ e).mp he
      rcases hbad with ⟨k, hk, hg⟩ | ⟨hva, k, hg, hk⟩
      · have := h2 k hk
        rw [fill_get, if_pos (admits_needs s k hk), hg] at this
        cases this
      · refine hk (h1 k ?_)
        rw [fill_get, if_pos (by simp [admits, hva])]
        exact hg
    unfold pyCall at hok ⊢
    split
    · rfl
    · rename_i c1
      rw [if_neg c1] at hok
      split
      · rfl
      · rename_i c2
        rw [if_neg c2] at hok
        split
        · rfl
        · rename_i c3
          rw [if_neg c3] at hok
          exact absurd rfl (hok _)
  · intro h hn hva
    have hc : safeCall s dicts = .ok (fill s dicts) := by
      rw [hno h, pyCall_ok]
      refine ⟨rfl, ?_, ?_⟩
      · intro k hk
        rw [fill_get] at hk
        split at hk
        · rename_i ha
          simp only [admits, allArgs, Bool.or_eq_true, List.contains_eq_mem, decide_eq_true_eq, List.mem_append] at ha
          rcases ha with ((ha | ha) | ha) | ha
          · exact .inl ha
          · exact .inr (.inl ha)
          · exact hva ha k hk
          · exact .inr (.inr ha)
        · cases hk
      · intro k hk
        rw [fill_get, if_pos (admits_needs s k hk)]
        exact hn k hk
    exact ⟨_, hc, (C64_success_exact_partial s dicts _ hc).1⟩

/-- `forward(self, a=1, *, b)`. -/
def kwSpec : ArgSpec := { args := ["a"], nDefaults := 1, kwonly := ["b"], kwdefaults := [], varargs := false, varkw := false }

/-- `forward(self, a, *args)`. -/
def varSpec : ArgSpec := { args := ["a"], nDefaults := 0, kwonly := [], kwdefaults := [], varargs := true, varkw := false }

theorem kwSpec_valid : kwSpec.Valid := ⟨by decide, by decide, by decide⟩

theorem varSpec_valid : varSpec.Valid := ⟨by decide, by decide, by decide⟩

/-- **C64 is violated**: with `forward(self, a=1, *, b)` and only `b` given, the argument `a`, which has a default, is demanded. -/
theorem C64_violated_demands_default : safeCall kwSpec [[("b", 2)]] = .error .runtime := by decide

/-- **C64 is violated**: with only `a` given, the missing `b` is not noticed by `safe_call` and Python raises `TypeError`. -/
theorem C64_violated_misses_argument : safeCall kwSpec [[("a", 2)]] = .error .type := by decide

/-- **C64 is violated**: `forward(self, a, *args)` is given an entry it does not accept. -/
theorem C64_violated_varargs : safeCall varSpec [[("a", 2), ("extra", 3)]] = .error .type := by decide

/-- The signature `forward(self, a=1, *, b)` demands `a`, which it does not need, and needs `b`, which it does not demand. -/
example : Demands kwSpec "a" ∧ ¬ Needs kwSpec "a" ∧ Needs kwSpec "b" ∧ ¬ Demands kwSpec "b" := by
  refine ⟨⟨0, by decide⟩, ?_, Or.inr (by decide), ?_⟩
  · rintro (⟨i, h, hi⟩ | h)
    · simp [kwSpec] at hi
    · simp [kwSpec] at h
  · rintro ⟨i, h, hi, -⟩
    have : i = 0 := by simp [kwSpec] at hi; omega
    subst this
    simp [kwSpec] at h

/-- **C64 is violated.** -/
theorem C64_violated : ¬ C64_full := by
  intro h
  obtain ⟨d, hd, _⟩ := (h varSpec [[("a", 2), ("extra", 3)]] varSpec_valid).1 (by
    rintro k (⟨i, hi, _⟩ | ⟨hk, _⟩)
    · cases i with
      | zero => simp [varSpec] at hi; subst hi; rfl
      | succ i => simp [varSpec] at hi
    · simp [varSpec] at hk)
  rw [C64_violated_varargs] at hd
  cases hd

/-- `forward(self, state, action, flag=False)`. -/
def plainSpec : ArgSpec :=
  { args := ["state", "action", "flag"], nDefaults := 1, kwonly := [], kwdefaults := [], varargs := false, varkw := false }

/-- Non-vacuity: extra entries are discarded, later dictionaries win, a missing argument is an error. -/
example : safeCall plainSpec [[("state", 1), ("other", 2)], [("action", 3), ("state", 4)]] = .ok [("state", 4), ("action", 3)] ∧
    safeCall plainSpec [[("state", 1)]] = .error .runtime ∧ plainSpec.kwonly = [] := by decide

example : plainSpec.Valid := ⟨by decide, by decide, by decide⟩

/-- **C64** (device): a model that names its device, or has all parameters on one device, gets it; parameters on several devices are an
error, and so is a model without parameters. -/
theorem C64_device_partial (paramDevices : List String) (d : String) :
    (∀ a, device (some a) paramDevices = .ok a) ∧
      (paramDevices ≠ [] → (∀ x ∈ paramDevices, x = d) → device none paramDevices = .ok d) ∧
      device none [] = .error .index := by
  refine ⟨fun a => rfl, ?_, by decide⟩
  intro hne hall
  have : paramDevices.eraseDups = [d] := by
    cases paramDevices with
    | nil => exact absurd rfl hne
    | cons x xs =>
      have hx := hall x (by simp)
      subst hx
      rw [List.eraseDups_cons]
      have : xs.filter (fun b => !b == x) = [] := by
        rw [List.filter_eq_nil_iff]
        intro y hy
        simp [hall y (by simp [hy])]
      rw [this]
      simp
  unfold device
  rw [this]

/-! ### C82 -/

/-- What the body of the compiled model sees for a call by position: every argument has a value. -/
def seenJit {V : Type} (s : ArgSpec) (vals : List (Option V)) (k : String) : Option (Option V) :=
  ((List.zip (allArgs s) vals).find? fun p => p.1 = k).map (·.2)

/-- C82 in full: an argument the dictionaries give has the given value, one they do not give is left to its default. -/
def C82_full : Prop :=
  ∀ (s : ArgSpec) (dicts : List (PyDict String Nat)) (vals : List (Option Nat)), s.Valid → jitSafeCall s dicts = .ok vals →
    ∀ k ∈ allArgs s, seenJit s vals k = (given dicts k).map some

theorem jit_get {V : Type} (s : ArgSpec) (dicts : List (PyDict String V)) (k : String) (hk : k ∈ allArgs s) :
    PyDict.get? (dicts.foldl (fun acc d => d.foldl (fun acc p => if (allArgs s).contains p.1 then PyDict.set acc p.1 p.2 else acc) acc) []) k =
      given dicts k := by
  rw [fold_get (fun k => (allArgs s).contains k)]
  rw [if_pos (List.contains_iff_mem.mpr hk)]
  simp

theorem zip_map_find {V : Type} (f : String → Option V) (l : List String) (k : String) (hk : k ∈ l) :
    ((List.zip l (l.map f)).find? fun p => decide (p.1 = k)).map (·.2) = some (f k) := by
  induction l with
  | nil => cases hk
  | cons x xs ih =>
    simp only [List.map_cons, List.zip_cons_cons, List.find?_cons]
    by_cases h : x = k
    · simp [h]
    · simp only [h, decide_false]
      exact ih ((List.mem_cons.mp hk).resolve_left (fun e => h e.symm))

/-- **C82** (partial): every given argument arrives with its value; one that is not given arrives as `None`. Missing: defaults. -/
theorem C82_jit_partial {V : Type} (s : ArgSpec) (dicts : List (PyDict String V)) (vals : List (Option V))
    (h : jitSafeCall s dicts = .ok vals) (k : String) (hk : k ∈ allArgs s) :
    seenJit s vals k = some (given dicts k) ∧ (∀ a ∈ requiredArgs s, (given dicts a).isSome) := by
  unfold jitSafeCall at h
  simp only at h
  split at h
  · cases h
  · next hreq =>
    rw [Except.ok.injEq] at h
    subst h
    refine ⟨?_, ?_⟩
    · unfold seenJit
      rw [zip_map_find _ _ _ hk, jit_get s dicts k hk]
    · intro a ha
      rw [List.any_eq_true] at hreq
      by_contra hn
      apply hreq
      refine ⟨a, ha, ?_⟩
      have hm : a ∈ allArgs s := List.mem_of_mem_filter ha
      rw [mem_get, jit_get s dicts a hm]
      simpa using hn

/-- **C82 is violated**: `forward(self, state, action, flag=False)` without a flag gets `None` for it. -/
theorem C82_violated : ¬ C82_full := by
  intro h
  have := h plainSpec [[("state", 1), ("action", 2)]] [some 1, some 2, none] ⟨by decide, by decide, by decide⟩ (by decide) "flag" (by decide)
  revert this
  decide

/-- Non-vacuity. -/
example : jitSafeCall plainSpec [[("state", 1), ("action", 2)], [("flag", 3)]] = .ok [some 1, some 2, some 3] ∧
    jitSafeCall plainSpec [[("state", 1)]] = .error .runtime := by decide

end Machin.SafeCall
