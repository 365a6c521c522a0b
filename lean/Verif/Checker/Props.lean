import Mathlib.Tactic.Linarith
import Verif.Checker.Model

/-!
# Properties of the model checker: C114, C115
-/

namespace Machin.Checker

/-! ## C114: the outermost leaf and atom modules are checked -/

/-- The specification: `m` is a leaf or an atom, and no module above it is an atom. -/
def Wanted (ms : List Mod) (m : Mod) : Prop :=
  (m.leaf = true ∨ m.atom = true) ∧ ∀ a ∈ ms, a.atom = true → a.path <+: m.path → a.path = m.path

/-- What `named_modules` guarantees: parents come first, paths are different, leaves have nothing below them. -/
structure Listing (ms : List Mod) : Prop where
  order : ms.Pairwise (fun a b => ¬ b.path <+: a.path)
  leaves : ∀ a ∈ ms, a.leaf = true → ∀ b ∈ ms, a.path <+: b.path → a.path = b.path

/-- C114, full statement: the modules checked are the wanted ones. -/
def C114_full : Prop := ∀ (root : List Char) (ms : List Mod), Listing ms → ∀ m ∈ ms, m ∈ selected root ms ↔ Wanted ms m

/-- A module whose name begins with the name of a module checked before it is skipped: after `fc1` the module `fc10` is never checked. -/
theorem C114_violated_name :
    let ms : List Mod := [⟨[], false, false⟩, ⟨["fc1".toList], true, false⟩, ⟨["fc10".toList], true, false⟩]
    Listing ms ∧ selected [] ms = [⟨["fc1".toList], true, false⟩] := by
  refine ⟨⟨by decide, by decide⟩, by decide⟩

/-- Every leaf or atom whose name continues the name of a module checked before it is skipped. -/
theorem C114_violated_skipped (root : List Char) (ms ms' : List Mod) (m a : Mod) (ha : a ∈ selected root ms)
    (hp : fullName root a.path <+: fullName root m.path) (hm : m ∉ ms ++ ms') : m ∉ selected root (ms ++ m :: ms') := by
  have sub : ∀ (l : List Mod) (c : List (List Char)) (x : Mod), x ∈ selectLoop root c l → x ∈ l := by
    intro l
    induction l with
    | nil => intro c x h; simp [selectLoop] at h
    | cons b l ih =>
      intro c x h
      rw [selectLoop] at h
      split at h
      · exact List.mem_cons_of_mem _ (ih _ _ h)
      · split at h
        · exact List.mem_cons_of_mem _ (ih _ _ h)
        · rcases List.mem_cons.1 h with h | h
          · simp [h]
          · exact List.mem_cons_of_mem _ (ih _ _ h)
  have key : ∀ (l : List Mod) (c : List (List Char)), m ∉ l → m ∉ ms' →
      ((∃ x ∈ c, x <+: fullName root m.path) ∨ ∃ x ∈ selectLoop root c l, fullName root x.path <+: fullName root m.path) →
      m ∉ selectLoop root c (l ++ m :: ms') := by
    intro l
    induction l with
    | nil =>
      intro c _ h2 h
      have h : ∃ x ∈ c, x <+: fullName root m.path := by simpa [selectLoop] using h
      have : c.any (fun c => c.isPrefixOf (fullName root m.path)) = true := by
        obtain ⟨x, hx, hx2⟩ := h
        rw [List.any_eq_true]
        exact ⟨x, hx, List.isPrefixOf_iff_prefix.2 hx2⟩
      rw [List.nil_append, selectLoop, this]
      split
      · exact fun hh => h2 (sub _ _ _ hh)
      · exact fun hh => h2 (sub _ _ _ hh)
    | cons b l ih =>
      intro c h1 h2 h
      have hb : m ≠ b := fun e => h1 (by simp [e])
      have h1' : m ∉ l := fun e => h1 (List.mem_cons_of_mem _ e)
      rw [List.cons_append, selectLoop]
      rw [selectLoop] at h
      split
      · rename_i hs
        rw [if_pos hs] at h
        exact ih c h1' h2 h
      · rename_i hs
        rw [if_neg hs] at h
        split
        · rename_i hc
          rw [if_pos hc] at h
          exact ih c h1' h2 h
        · rename_i hc
          rw [if_neg hc] at h
          intro hh
          rcases List.mem_cons.1 hh with hh | hh
          · exact hb hh
          · refine ih _ h1' h2 ?_ hh
            rcases h with ⟨x, hx, hx2⟩ | ⟨x, hx, hx2⟩
            · exact Or.inl ⟨x, by simp [hx], hx2⟩
            · rcases List.mem_cons.1 hx with rfl | hx
              · exact Or.inl ⟨_, by simp, hx2⟩
              · exact Or.inr ⟨x, hx, hx2⟩
  simp only [List.mem_append, not_or] at hm
  exact key ms [] hm.1 hm.2 (Or.inr ⟨a, ha, hp⟩)

/-- C114 is violated. -/
theorem C114_violated : ¬ C114_full := by
  intro h
  obtain ⟨h1, h2⟩ := C114_violated_name
  have := h [] _ h1 ⟨["fc10".toList], true, false⟩ (by simp)
  rw [h2] at this
  have h3 : Wanted [⟨[], false, false⟩, ⟨["fc1".toList], true, false⟩, ⟨["fc10".toList], true, false⟩] ⟨["fc10".toList], true, false⟩ := by
    unfold Wanted; decide
  have := this.2 h3
  revert this
  decide

/-- The name of a module begins with the names of the modules above it. -/
private theorem name_prefix (root : List Char) (p q : List (List Char)) (h : p <+: q) : fullName root p <+: fullName root q := by
  obtain ⟨r, rfl⟩ := h
  unfold fullName
  rw [List.foldl_append]
  generalize p.foldl (fun acc c => if acc = [] then c else acc ++ '.' :: c) root = acc
  induction r generalizing acc with
  | nil => exact List.prefix_refl _
  | cons c r ih =>
    rw [List.foldl_cons]
    refine List.IsPrefix.trans ?_ (ih _)
    split
    · rename_i h; rw [h]; exact List.nil_prefix
    · exact List.prefix_append _ _

private theorem loop_append (root : List Char) (l₁ l₂ : List Mod) : ∀ (c : List (List Char)),
    selectLoop root c (l₁ ++ l₂) =
      selectLoop root c l₁ ++ selectLoop root (c ++ (selectLoop root c l₁).map (fun m => fullName root m.path)) l₂ := by
  induction l₁ with
  | nil => intro c; simp [selectLoop]
  | cons m l₁ ih =>
    intro c
    rw [List.cons_append, selectLoop, selectLoop]
    split
    · exact ih c
    · split
      · exact ih c
      · rw [ih]; simp

private theorem loop_sub (root : List Char) (l : List Mod) : ∀ (c : List (List Char)) (x : Mod), x ∈ selectLoop root c l →
    x ∈ l ∧ (x.leaf = true ∨ x.atom = true) := by
  induction l with
  | nil => intro c x h; simp [selectLoop] at h
  | cons b l ih =>
    intro c x h
    rw [selectLoop] at h
    split at h
    · exact ⟨List.mem_cons_of_mem _ (ih _ _ h).1, (ih _ _ h).2⟩
    · rename_i hb
      split at h
      · exact ⟨List.mem_cons_of_mem _ (ih _ _ h).1, (ih _ _ h).2⟩
      · rcases List.mem_cons.1 h with rfl | h
        · refine ⟨by simp, ?_⟩
          cases hl : x.leaf <;> simp_all
        · exact ⟨List.mem_cons_of_mem _ (ih _ _ h).1, (ih _ _ h).2⟩

/-- A module is chosen exactly if it is a leaf or an atom and no module chosen before it has a name with which its own begins. -/
private theorem mem_iff (root : List Char) (l₁ l₂ : List Mod) (m : Mod) (h₁ : m ∉ l₁) (h₂ : m ∉ l₂) :
    m ∈ selected root (l₁ ++ m :: l₂) ↔
      (m.leaf = true ∨ m.atom = true) ∧ ∀ a ∈ selected root l₁, ¬ fullName root a.path <+: fullName root m.path := by
  unfold selected
  rw [loop_append, List.mem_append]
  have e1 : m ∉ selectLoop root [] l₁ := fun h => h₁ (loop_sub root l₁ _ _ h).1
  rw [or_iff_right e1, List.nil_append]
  generalize selectLoop root [] l₁ = sel
  have hany : (sel.map (fun m => fullName root m.path)).any (fun c => c.isPrefixOf (fullName root m.path)) = true ↔
      ∃ a ∈ sel, fullName root a.path <+: fullName root m.path := by
    rw [List.any_eq_true]
    constructor
    · rintro ⟨x, hx, hp⟩
      obtain ⟨a, ha, rfl⟩ := List.mem_map.1 hx
      exact ⟨a, ha, List.isPrefixOf_iff_prefix.1 hp⟩
    · rintro ⟨a, ha, hp⟩
      exact ⟨_, List.mem_map.2 ⟨a, ha, rfl⟩, List.isPrefixOf_iff_prefix.2 hp⟩
  rw [selectLoop]
  split
  · rename_i hl
    constructor
    · intro h; exact absurd (loop_sub root l₂ _ _ h).1 h₂
    · rintro ⟨h, _⟩; cases hl' : m.leaf <;> simp_all
  · rename_i hl
    split
    · rename_i hc
      constructor
      · intro h; exact absurd (loop_sub root l₂ _ _ h).1 h₂
      · rintro ⟨_, h⟩
        obtain ⟨a, ha, hp⟩ := hany.1 hc
        exact absurd hp (h a ha)
    · rename_i hc
      constructor
      · intro _
        refine ⟨?_, fun a ha hp => hc (hany.2 ⟨a, ha, hp⟩)⟩
        cases hl' : m.leaf <;> simp_all
      · intro _; simp

private theorem split_at {ms : List Mod} (h : Listing ms) {m : Mod} (hm : m ∈ ms) :
    ∃ l₁ l₂, ms = l₁ ++ m :: l₂ ∧ m ∉ l₁ ∧ m ∉ l₂ ∧ (∀ a ∈ l₁, ¬ m.path <+: a.path) ∧ ∀ b ∈ l₂, ¬ b.path <+: m.path := by
  obtain ⟨l₁, l₂, rfl⟩ := List.append_of_mem hm
  have ho := h.order
  rw [List.pairwise_append] at ho
  obtain ⟨_, h2, h3⟩ := ho
  rw [List.pairwise_cons] at h2
  have e1 : ∀ a ∈ l₁, ¬ m.path <+: a.path := fun a ha => h3 a ha m (by simp)
  exact ⟨l₁, l₂, rfl, fun hh => e1 m hh (List.prefix_refl _), fun hh => h2.1 m hh (List.prefix_refl _), e1, h2.1⟩

/-- C114, what holds: only wanted modules are checked; and all of them, if no module's name begins with the name of a module that is not
above it. -/
theorem C114_modules_partial (root : List Char) (ms : List Mod) (h : Listing ms) :
    (∀ m ∈ selected root ms, m ∈ ms ∧ Wanted ms m) ∧
    ((∀ a ∈ ms, ∀ b ∈ ms, fullName root a.path <+: fullName root b.path → a.path <+: b.path) →
      ∀ m ∈ ms, m ∈ selected root ms ↔ Wanted ms m) := by
  have sound : ∀ m ∈ selected root ms, m ∈ ms ∧ Wanted ms m := by
    intro m hm
    have hms : m ∈ ms := (loop_sub root ms _ _ hm).1
    refine ⟨hms, (loop_sub root ms _ _ hm).2, ?_⟩
    obtain ⟨l₁, l₂, rfl, h1, h2, h3, h4⟩ := split_at h hms
    rw [mem_iff root l₁ l₂ m h1 h2] at hm
    intro a ha hat hp
    by_contra hne
    have ha1 : a ∈ l₁ := by
      rcases List.mem_append.1 ha with ha | ha
      · exact ha
      · rcases List.mem_cons.1 ha with rfl | ha
        · exact absurd rfl hne
        · exact absurd hp (h4 a ha)
    have hl : Listing l₁ := by
      constructor
      · exact (List.pairwise_append.1 h.order).1
      · intro x hx hxl b hb
        exact h.leaves x (by simp [hx]) hxl b (by simp [hb])
    obtain ⟨k₁, k₂, rfl, g1, g2, _, _⟩ := split_at hl ha1
    have hn := name_prefix root _ _ hp
    by_cases hs : a ∈ selected root (k₁ ++ a :: k₂)
    · exact hm.2 a hs hn
    · rw [mem_iff root k₁ k₂ a g1 g2] at hs
      simp only [hat, or_true, true_and] at hs
      push Not at hs
      obtain ⟨x, hx, hxp⟩ := hs
      refine hm.2 x ?_ (hxp.trans hn)
      unfold selected at hx ⊢
      rw [loop_append]
      exact List.mem_append.2 (Or.inl hx)
  refine ⟨sound, fun hn m hm => ⟨fun hs => (sound m hs).2, fun hw => ?_⟩⟩
  obtain ⟨l₁, l₂, rfl, h1, h2, h3, h4⟩ := split_at h hm
  rw [mem_iff root l₁ l₂ m h1 h2]
  refine ⟨hw.1, fun a ha hp => ?_⟩
  obtain ⟨ha1, ha2⟩ := loop_sub root l₁ _ _ ha
  have hpp := hn a (by simp [ha1]) m (by simp) hp
  have heq : a.path = m.path := by
    rcases ha2 with hl | hat
    · exact h.leaves a (by simp [ha1]) hl m (by simp) hpp
    · exact hw.2 a (by simp [ha1]) hat hpp
  exact h3 a ha1 (heq ▸ List.prefix_refl _)

/-- An atom with two children beside a leaf: the atom and the leaf are checked. -/
example : selected "net".toList [⟨[], false, false⟩, ⟨["a".toList], false, true⟩, ⟨["a".toList, "x".toList], true, false⟩,
    ⟨["a".toList, "y".toList], true, false⟩, ⟨["b".toList], true, false⟩] = [⟨["a".toList], false, true⟩, ⟨["b".toList], true, false⟩] := by decide

example : Listing [⟨[], false, false⟩, ⟨["a".toList], false, true⟩, ⟨["a".toList, "x".toList], true, false⟩,
    ⟨["a".toList, "y".toList], true, false⟩, ⟨["b".toList], true, false⟩] := ⟨by decide, by decide⟩

/-! ## C115: hooks see every input, output and parameter under its name -/

/-- The specification: the pairs a hook must be called with, in a pass in which checks are due. -/
def named {V : Type} (mod kind : String) (l : List (String × V)) : List (String × V) := l.map (fun q => (mod ++ kind ++ q.1, q.2))

/-- C115, full statement: in a due pass (the interval divides the number of the pass) every input is passed to the hooks under its declared name,
every output under its number, every parameter under its name. -/
def C115_full : Prop :=
  ∀ (V : Type) (rows : V → Except Err (List V)) (interval pass : Nat) (mod : String), 0 < interval → pass % interval = 0 →
    (∀ (l : List (String × V)), inputCalls interval pass mod (l.map (·.1)) (l.map (·.2)) = .ok (named mod ".input." l)) ∧
    (∀ x : V, outputCalls rows interval pass mod none (.tensor x) = .ok (named mod ".output." [("0", x)])) ∧
    (∀ (l : List V), outputCalls rows interval pass mod none (.tuple l) = .ok (named mod ".output." (((List.range l.length).map toString).zip l))) ∧
    (∀ (l : List (String × V)), paramCalls interval pass mod l = .ok (named mod ".param." l))

private theorem due_true {interval pass : Nat} (h : 0 < interval) (hp : pass % interval = 0) : due interval pass = .ok true := by
  simp [due, Nat.pos_iff_ne_zero.1 h, hp]

/-- Every input is reported under the name of the input before it, the first one as `self`. -/
theorem C115_violated_input {V : Type} (interval pass : Nat) (mod : String) (h : 0 < interval) (hp : pass % interval = 0)
    (l : List (String × V)) :
    inputCalls interval pass mod (l.map (·.1)) (l.map (·.2)) =
      .ok (named mod ".input." (("self" :: l.map (·.1)).zip (l.map (·.2)))) := by
  simp [inputCalls, due_true h hp, argNames, named]

/-- A `forward` that takes its inputs as `*args` has only the first one checked. -/
theorem C115_violated_variadic {V : Type} (interval pass : Nat) (mod : String) (h : 0 < interval) (hp : pass % interval = 0)
    (x : V) (xs : List V) : inputCalls interval pass mod [] (x :: xs) = .ok [(mod ++ ".input." ++ "self", x)] := by
  simp [inputCalls, due_true h hp, argNames]

/-- Of an output that is a single tensor only the first row is checked. -/
theorem C115_violated_output {V : Type} (rows : V → Except Err (List V)) (interval pass : Nat) (mod : String) (h : 0 < interval)
    (hp : pass % interval = 0) (x r : V) (rs : List V) (hr : rows x = .ok (r :: rs)) :
    outputCalls rows interval pass mod none (.tensor x) = .ok (named mod ".output." [("0", r)]) := by
  simp [outputCalls, due_true h hp, hr, named]

/-- An output that cannot be iterated over, such as a tensor without dimensions, raises out of the hook. -/
theorem C115_violated_scalar {V : Type} (rows : V → Except Err (List V)) (interval pass : Nat) (mod : String) (h : 0 < interval)
    (hp : pass % interval = 0) (marked : Option (List String)) (x : V) (e : Err) (hr : rows x = .error e) :
    outputCalls rows interval pass mod marked (.tensor x) = .error e := by
  simp [outputCalls, due_true h hp, hr]

/-- Of the parameters only the last one is checked, as many times as there are parameters. -/
theorem C115_violated_param {V : Type} (interval pass : Nat) (mod : String) (h : 0 < interval) (hp : pass % interval = 0)
    (l : List (String × V)) (last : String × V) :
    paramCalls interval pass mod (l ++ [last]) = .ok (named mod ".param." (List.replicate (l.length + 1) last)) := by
  simp [paramCalls, due_true h hp, named]

/-- So a nan in any parameter but the last is not noticed, nor a nan in any row of an output but the first. -/
theorem C115_violated_unnoticed {V : Type} (hasNan : V → Bool) (interval pass : Nat) (mod : String) (h : 0 < interval)
    (hp : pass % interval = 0) (l : List (String × V)) (last : String × V) (hl : hasNan last.2 = false) :
    (∃ calls, paramCalls interval pass mod (l ++ [last]) = .ok calls ∧ nanFound hasNan calls = false) ∧
    (∀ (rows : V → Except Err (List V)) (x r : V) (rs : List V), rows x = .ok (r :: rs) → hasNan r = false →
      ∃ calls, outputCalls rows interval pass mod none (.tensor x) = .ok calls ∧ nanFound hasNan calls = false) := by
  constructor
  · refine ⟨_, C115_violated_param interval pass mod h hp l last, ?_⟩
    simp only [nanFound, named, List.any_eq_false]
    intro q hq
    obtain ⟨a, ha, rfl⟩ := List.mem_map.1 hq
    rw [(List.mem_replicate.1 ha).2]
    simp [hl]
  · intro rows x r rs hr hn
    exact ⟨_, C115_violated_output rows interval pass mod h hp x r rs hr, by simp [nanFound, named, hn]⟩

/-- C115 is violated. -/
theorem C115_violated : ¬ C115_full := by
  intro h
  have h1 := (h Nat (fun _ => .ok []) 1 1 "m" (by simp) rfl).2.2.2 [("weight", 0), ("bias", 1)]
  rw [show [("weight", 0), ("bias", 1)] = [("weight", (0 : Nat))] ++ [("bias", 1)] from rfl,
    C115_violated_param 1 1 "m" (by simp) rfl] at h1
  simp [named, List.replicate] at h1

/-- C115, what holds: outside the due passes no hook is called; all inputs of a module with enough declared inputs are seen, in order; a
tuple is seen completely under its numbers, or under the names it was given if they are as many; a single parameter is seen under its name. -/
theorem C115_values_partial {V : Type} (rows : V → Except Err (List V)) (interval pass : Nat) (mod : String) (h : 0 < interval) :
    (pass % interval ≠ 0 → (∀ d (l : List V), inputCalls interval pass mod d l = .ok []) ∧
      (∀ mk (o : Out V), outputCalls rows interval pass mod mk o = .ok []) ∧ ∀ (l : List (String × V)), paramCalls interval pass mod l = .ok []) ∧
    (pass % interval = 0 →
      (∀ (d : List String) (l : List V), l.length ≤ d.length + 1 →
        ∃ calls, inputCalls interval pass mod d l = .ok calls ∧ calls.map (·.2) = l) ∧
      (∀ (l : List V), outputCalls rows interval pass mod none (.tuple l) = .ok (named mod ".output." (((List.range l.length).map toString).zip l))) ∧
      (∀ (l : List (String × V)), outputCalls rows interval pass mod (some (l.map (·.1))) (.tuple (l.map (·.2))) = .ok (named mod ".output." l)) ∧
      (∀ q : String × V, paramCalls interval pass mod [q] = .ok (named mod ".param." [q]))) := by
  constructor
  · intro hp
    have hd : due interval pass = .ok false := by simp [due, Nat.pos_iff_ne_zero.1 h, hp]
    refine ⟨?_, ?_, ?_⟩
    · intro d l; simp [inputCalls, hd]
    · intro mk o; simp [outputCalls, hd]
    · intro l; unfold paramCalls; cases l.getLast? <;> simp [hd]
  · intro hp
    have hd := due_true h hp
    refine ⟨?_, ?_, ?_, ?_⟩
    · intro d l hl
      refine ⟨((argNames d).zip l).map (fun q => (mod ++ ".input." ++ q.1, q.2)), by simp only [inputCalls, hd], ?_⟩
      rw [List.map_map]
      change ((argNames d).zip l).map Prod.snd = l
      rw [List.map_snd_zip]
      simpa [argNames] using hl
    · intro l; simp [outputCalls, hd, named]
    · intro l
      simp only [outputCalls, hd, named, Option.getD_some]
      congr 1
      congr 1
      rw [List.zip_map']; simp
    · intro q; simp [paramCalls, hd, named]

example : inputCalls 2 4 "m" ["x", "y"] [10, 20] = .ok [("m.input.self", 10), ("m.input.x", 20)] := by decide
example : outputCalls (fun (x : Nat) => .ok [x, x + 1]) 1 3 "m" none (.tensor 5) = .ok [("m.output.0", 5)] := by decide

end Machin.Checker
