import Verif.Checker.Hooks
import Mathlib.Tactic.Linarith
import Mathlib.Tactic.FieldSimp
import Mathlib.Algebra.Order.Field.Basic
import Mathlib.Data.Rat.Cast.Order

/-!
# C207: a checked model behaves as before unless there is a nan
-/

namespace Machin.Checker

/-- A value the checker can have no complaint about: no element is nan. -/
def NoNan : Val → Prop
  | .other => True
  | .ten x => ∀ a ∈ x.vals, a ≠ none

/-- All values of a module. -/
def Visit.NoNan (v : Visit) : Prop :=
  (∀ x ∈ v.inputs, Checker.NoNan x) ∧ (match v.out with | .tuple l => ∀ x ∈ l, Checker.NoNan x | .tensor x => Checker.NoNan x) ∧
    ∀ q ∈ v.params, Checker.NoNan q.2

/-- C207, full statement: with the default hooks and the default intervals, a forward pass without any nan raises no exception; one with a nan in an
input raises `CheckError`. -/
def C207_full : Prop :=
  ∀ (pass : Nat) (vs : List Visit) (log : List Entry), ((∀ v ∈ vs, v.NoNan) → (forward {} false pass vs log).2 = none) ∧
    ∀ v, vs = [v] → v.inputs.length ≤ v.declared.length → (∃ x ∈ v.inputs, ¬ NoNan x) → (forward {} false pass vs log).2 = some checkError

/-- An integer input (of an embedding, say) makes the pass raise RuntimeError, whatever the values are. -/
theorem C207_violated_integer (pass : Nat) (v : Visit) (vs : List Visit) (x : Ten) (xs : List Val) (log : List Entry) (hi : v.inputs = .ten x :: xs)
    (hx : x.kind = .int) (hn : NoNan (.ten x)) : forward {} false pass (v :: vs) log = (log, some .runtime) := by
  have h1 : checkNan x = .ok () := by
    have : x.vals.any (·.isNone) = false := by
      rw [List.any_eq_false]
      intro a ha
      cases a with
      | none => exact absurd rfl (hn _ ha)
      | some a => simp
    simp [checkNan, this]
  have h2 : ranges x = .error .runtime := by
    unfold ranges
    cases hv : x.vals with
    | nil => rfl
    | cons a l => simp [hx]
  simp [forward, visit, hookOn, inputCalls, due, argNames, hi, onAll, ioHooks, h1, h2, Nat.mod_one]

/-- So does an input without elements, and an output that is a single number raises TypeError. -/
theorem C207_violated_empty (pass : Nat) (v : Visit) (vs : List Visit) (x : Ten) (xs : List Val) (log : List Entry) (hi : v.inputs = .ten x :: xs)
    (hx : x.vals = []) : forward {} false pass (v :: vs) log = (log, some .runtime) := by
  have h1 : checkNan x = .ok () := by simp [checkNan, hx]
  have h2 : ranges x = .error .runtime := by simp [ranges, hx]
  simp [forward, visit, hookOn, inputCalls, due, argNames, hi, onAll, ioHooks, h1, h2, Nat.mod_one]

theorem C207_violated_scalar (pass : Nat) (v : Visit) (vs : List Visit) (x : Ten) (log : List Entry) (hi : v.inputs = []) (ho : v.out = .tensor (.ten x))
    (hx : x.shape = []) : forward {} false pass (v :: vs) log = (log, some .type) := by
  simp [forward, visit, hookOn, inputCalls, outputCalls, due, argNames, hi, ho, onAll, rowsOf, hx, Nat.mod_one]

theorem C207_violated : ¬ C207_full := by
  intro h
  have := (h 1 [⟨"emb", ["x"], [.ten ⟨.int, [1], [some 3]⟩], none, .tuple [], []⟩] []).1 (by
    intro v hv
    rw [List.mem_singleton] at hv
    subst hv
    refine ⟨?_, ?_, ?_⟩
    · intro x hx
      rw [List.mem_singleton] at hx
      subst hx
      intro a ha
      simp at ha
      simp [ha]
    · intro x hx
      simp at hx
    · intro q hq
      simp at hq)
  rw [C207_violated_integer 1 _ [] ⟨.int, [1], [some 3]⟩ [] [] rfl rfl (by intro a ha; simp at ha; simp [ha])] at this
  simp at this

/-- A nonempty tensor of floats without nan. -/
def Good : Val → Prop
  | .other => True
  | .ten x => x.kind = .float ∧ x.vals ≠ [] ∧ ∀ a ∈ x.vals, a ≠ none

theorem finite_spec (l : List (Option ℚ)) : (∀ a ∈ l, a ≠ none) → ∃ r, finite l = some r ∧ r.map some = l := by
  induction l with
  | nil => intro _; exact ⟨[], rfl, rfl⟩
  | cons a l ih =>
    intro h
    cases a with
    | none => exact absurd rfl (h none (by simp))
    | some a =>
      obtain ⟨r, h1, h2⟩ := ih (fun b hb => h b (by simp [hb]))
      exact ⟨a :: r, by simp [finite, h1], by simp [h2]⟩

theorem foldl_min (l : List ℚ) : ∀ a : ℚ, (l.foldl min a ∈ a :: l) ∧ ∀ b ∈ a :: l, l.foldl min a ≤ b := by
  induction l with
  | nil => intro a; simp
  | cons c l ih =>
    intro a
    obtain ⟨h1, h2⟩ := ih (min a c)
    simp only [List.foldl_cons]
    constructor
    · rcases List.mem_cons.1 h1 with h | h
      · rw [h]
        rcases min_choice a c with h' | h' <;> simp [h']
      · simp [h]
    · intro b hb
      have h3 := h2 (min a c) (by simp)
      rcases List.mem_cons.1 hb with h | h
      · rw [h]; exact le_trans h3 (min_le_left _ _)
      · rcases List.mem_cons.1 h with h | h
        · rw [h]; exact le_trans h3 (min_le_right _ _)
        · exact h2 b (by simp [h])

theorem foldl_max (l : List ℚ) : ∀ a : ℚ, (l.foldl max a ∈ a :: l) ∧ ∀ b ∈ a :: l, b ≤ l.foldl max a := by
  induction l with
  | nil => intro a; simp
  | cons c l ih =>
    intro a
    obtain ⟨h1, h2⟩ := ih (max a c)
    simp only [List.foldl_cons]
    constructor
    · rcases List.mem_cons.1 h1 with h | h
      · rw [h]
        rcases max_choice a c with h' | h' <;> simp [h']
      · simp [h]
    · intro b hb
      have h3 := h2 (max a c) (by simp)
      rcases List.mem_cons.1 hb with h | h
      · rw [h]; exact le_trans (le_max_left _ _) h3
      · rcases List.mem_cons.1 h with h | h
        · rw [h]; exact le_trans (le_max_right _ _) h3
        · exact h2 b (by simp [h])

/-- What an entry says about a tensor: its smallest, its largest and its mean value. -/
def Describes (e : Entry) (name : String) (pass : Nat) (x : Ten) : Prop :=
  e.name = name ∧ e.step = pass ∧ ∃ lo hi mean, e.stats = some (lo, hi, mean) ∧ some lo ∈ x.vals ∧ some hi ∈ x.vals ∧
    (∀ a, some a ∈ x.vals → lo ≤ a ∧ a ≤ hi) ∧ mean * x.vals.length = (x.vals.map (·.getD 0)).sum ∧ lo ≤ mean ∧ mean ≤ hi

theorem sum_bounds (l : List ℚ) (lo hi : ℚ) (h : ∀ a ∈ l, lo ≤ a ∧ a ≤ hi) : lo * l.length ≤ l.sum ∧ l.sum ≤ hi * l.length := by
  induction l with
  | nil => simp
  | cons a l ih =>
    obtain ⟨h1, h2⟩ := ih (fun b hb => h b (by simp [hb]))
    obtain ⟨h3, h4⟩ := h a (by simp)
    simp only [List.sum_cons, List.length_cons, Nat.cast_add, Nat.cast_one]
    constructor <;> linarith

theorem ranges_good {x : Ten} (h : Good (.ten x)) : ∃ lo hi mean, ranges x = .ok (some (lo, hi, mean)) ∧ some lo ∈ x.vals ∧ some hi ∈ x.vals ∧
    (∀ a, some a ∈ x.vals → lo ≤ a ∧ a ≤ hi) ∧ mean * x.vals.length = (x.vals.map (·.getD 0)).sum ∧ lo ≤ mean ∧ mean ≤ hi := by
  obtain ⟨h1, h2, h3⟩ := h
  obtain ⟨r, hr, hm⟩ := finite_spec _ h3
  cases r with
  | nil => exact absurd hm.symm h2
  | cons a l =>
    have hv : x.vals = some a :: l.map some := by rw [← hm]; rfl
    refine ⟨l.foldl min a, l.foldl max a, (a :: l).sum / (a :: l).length, ?_, ?_, ?_, ?_, ?_, ?_, ?_⟩
    · unfold ranges
      rw [hv] at hr ⊢
      simp only [h1, hr]
    · rw [← hm]; exact List.mem_map.2 ⟨_, (foldl_min l a).1, rfl⟩
    · rw [← hm]; exact List.mem_map.2 ⟨_, (foldl_max l a).1, rfl⟩
    · intro b hb
      rw [← hm] at hb
      obtain ⟨c, hc, hcb⟩ := List.mem_map.1 hb
      cases hcb
      exact ⟨(foldl_min l a).2 _ hc, (foldl_max l a).2 _ hc⟩
    · rw [← hm, List.map_map, List.length_map]
      have : ((fun o : Option ℚ => o.getD 0) ∘ some) = id := rfl
      rw [this, List.map_id]
      have : ((a :: l).length : ℚ) ≠ 0 := by rw [List.length_cons]; positivity
      field_simp
    · have hb := (sum_bounds (a :: l) _ _ (fun c hc => ⟨(foldl_min l a).2 c hc, (foldl_max l a).2 c hc⟩)).1
      rw [le_div_iff₀ (by rw [List.length_cons]; positivity)]
      exact hb
    · have hb := (sum_bounds (a :: l) _ _ (fun c hc => ⟨(foldl_min l a).2 c hc, (foldl_max l a).2 c hc⟩)).2
      rw [div_le_iff₀ (by rw [List.length_cons]; positivity)]
      exact hb

theorem checkNan_iff (x : Ten) : checkNan x = .ok () ↔ NoNan (.ten x) := by
  unfold checkNan NoNan
  constructor
  · intro h a ha hn
    rw [if_pos (List.any_eq_true.2 ⟨a, ha, by simp [hn]⟩)] at h
    simp at h
  · intro h
    rw [if_neg]
    intro hc
    obtain ⟨a, ha, hn⟩ := List.any_eq_true.1 hc
    exact h a ha (by simpa using hn)

/-- The tensors among the calls. -/
def tensors : List (String × Val) → List (String × Ten)
  | [] => []
  | (_, .other) :: l => tensors l
  | (n, .ten x) :: l => (n, x) :: tensors l

/-- Inputs and outputs without nan, with elements and of floats raise nothing, and for each of them, in order, one true entry is written. -/
theorem C207_good_partial (pass : Nat) (calls : List (String × Val)) (log : List Entry) (h : ∀ c ∈ calls, Good c.2) :
    ∃ es, onAll (ioHooks pass) calls log = (log ++ es, none) ∧ es.length = (tensors calls).length ∧
      ∀ (i : Nat) (e : Entry) (q : String × Ten), es[i]? = some e → (tensors calls)[i]? = some q → Describes e q.1 pass q.2 := by
  induction calls generalizing log with
  | nil => exact ⟨[], by simp [onAll], rfl, by simp⟩
  | cons c cs ih =>
    obtain ⟨n, v⟩ := c
    have hcs : ∀ c ∈ cs, Good c.2 := fun c hc => h c (by simp [hc])
    cases v with
    | other =>
      obtain ⟨es, h1, h2, h3⟩ := ih log hcs
      exact ⟨es, by simp [onAll, ioHooks, h1], by simpa [tensors] using h2, by simpa [tensors] using h3⟩
    | ten x =>
      have hg := h (n, .ten x) (by simp)
      obtain ⟨lo, hi, mean, hr, hrest⟩ := ranges_good hg
      obtain ⟨es, h1, h2, h3⟩ := ih (log ++ [⟨n, some (lo, hi, mean), pass, none⟩]) hcs
      refine ⟨⟨n, some (lo, hi, mean), pass, none⟩ :: es, ?_, by simp [tensors, h2], ?_⟩
      · simp only [onAll, ioHooks, (checkNan_iff x).2 hg.2.2, hr, h1, List.append_assoc, List.singleton_append]
      · intro i e q he hq
        cases i with
        | zero =>
          simp only [tensors, List.getElem?_cons_zero, Option.some.injEq] at he hq
          subst he; subst hq
          exact ⟨rfl, rfl, lo, hi, mean, rfl, hrest⟩
        | succ i =>
          simp only [tensors, List.getElem?_cons_succ] at he hq
          exact h3 i e q he hq

/-- The same for parameters, and all their values go to the histogram. -/
theorem C207_params_partial (pass : Nat) (calls : List (String × Ten)) (log : List Entry) (h : ∀ c ∈ calls, Good (.ten c.2)) :
    ∃ es, onAll (pHooks pass) (calls.map fun c => (c.1, .ten c.2)) log = (log ++ es, none) ∧ es.length = calls.length ∧
      ∀ (i : Nat) (e : Entry) (q : String × Ten), es[i]? = some e → calls[i]? = some q → Describes e q.1 pass q.2 ∧ e.hist = some q.2.vals := by
  induction calls generalizing log with
  | nil => exact ⟨[], by simp [onAll], rfl, by simp⟩
  | cons c cs ih =>
    obtain ⟨n, x⟩ := c
    have hg := h (n, x) (by simp)
    obtain ⟨lo, hi, mean, hr, hrest⟩ := ranges_good hg
    obtain ⟨es, h1, h2, h3⟩ := ih (log ++ [⟨n, some (lo, hi, mean), pass, some x.vals⟩]) (fun c hc => h c (by simp [hc]))
    refine ⟨⟨n, some (lo, hi, mean), pass, some x.vals⟩ :: es, ?_, by simp [h2], ?_⟩
    · simp only [List.map_cons, onAll, pHooks, (checkNan_iff x).2 hg.2.2, hr, h1, List.append_assoc, List.singleton_append]
    · intro i e q he hq
      cases i with
      | zero =>
        simp only [List.getElem?_cons_zero, Option.some.injEq] at he hq
        subst he; subst hq
        exact ⟨⟨rfl, rfl, lo, hi, mean, rfl, hrest⟩, rfl⟩
      | succ i =>
        simp only [List.getElem?_cons_succ] at he hq
        exact h3 i e q he hq

/-- The first nan raises `CheckError`: what came before is written, for the tensor with the nan and what follows nothing is. -/
theorem C207_nan_partial (pass : Nat) (before after : List (String × Val)) (n : String) (x : Ten) (log : List Entry) (h : ∀ c ∈ before, Good c.2)
    (hx : ¬ NoNan (.ten x)) :
    onAll (ioHooks pass) (before ++ (n, .ten x) :: after) log = ((onAll (ioHooks pass) before log).1, some checkError) ∧
    onAll (pHooks pass) ((n, .ten x) :: after) log = (log, some checkError) := by
  have hc : checkNan x = .error checkError := by
    cases hc : checkNan x with
    | ok u => exact absurd ((checkNan_iff x).1 hc) hx
    | error e =>
      unfold checkNan at hc
      split at hc
      · cases hc; rfl
      · simp at hc
  refine ⟨?_, by simp [onAll, pHooks, hc]⟩
  induction before generalizing log with
  | nil => simp [onAll, ioHooks, hc]
  | cons c cs ih =>
    obtain ⟨es, h1, _⟩ := C207_good_partial pass [c] log (fun d hd => h d (by simp at hd; simp [hd]))
    have h2 : ioHooks pass c.1 c.2 log = (log ++ es, none) := by
      simp only [onAll] at h1
      split at h1
      · cases h1
      · next l' hl => rw [hl]; simpa using h1
    simp only [List.cons_append, onAll, h2]
    exact ih _ (fun d hd => h d (by simp [hd]))

/-- The hooks only ever add entries, and after `cancel()` they do nothing. -/
theorem C207_cancel_partial (iv : Intervals) (pass : Nat) (vs : List Visit) (log : List Entry) : forward iv true pass vs log = (log, none) := by
  cases vs <;> simp [forward]

theorem onAll_prefix (hook : String → Val → List Entry → List Entry × Option Err) (hh : ∀ n v log, log <+: (hook n v log).1) (cs : List (String × Val)) :
    ∀ log, log <+: (onAll hook cs log).1 := by
  induction cs with
  | nil => intro log; simp [onAll]
  | cons c cs ih =>
    intro log
    have h1 := hh c.1 c.2 log
    unfold onAll
    split
    · next e => rw [e] at h1; exact h1
    · next e => rw [e] at h1; exact h1.trans (ih _)

theorem ioHooks_prefix (pass : Nat) (n : String) (v : Val) (log : List Entry) : log <+: (ioHooks pass n v log).1 := by
  unfold ioHooks
  split
  · exact List.prefix_refl _
  · split
    · exact List.prefix_refl _
    · split
      · exact List.prefix_refl _
      · exact List.prefix_append _ _

theorem pHooks_prefix (pass : Nat) (n : String) (v : Val) (log : List Entry) : log <+: (pHooks pass n v log).1 := by
  unfold pHooks
  split
  · exact List.prefix_refl _
  · split
    · exact List.prefix_refl _
    · split
      · exact List.prefix_refl _
      · exact List.prefix_append _ _

theorem hookOn_prefix (hook : String → Val → List Entry → List Entry × Option Err) (hh : ∀ n v log, log <+: (hook n v log).1)
    (calls : Except Err (List (String × Val))) (log : List Entry) : log <+: (hookOn hook calls log).1 := by
  unfold hookOn
  split
  · exact List.prefix_refl _
  · exact onAll_prefix hook hh _ log

theorem visit_prefix (iv : Intervals) (pass : Nat) (v : Visit) (log : List Entry) : log <+: (visit iv pass v log).1 := by
  have h1 := hookOn_prefix _ (ioHooks_prefix pass) (inputCalls iv.input pass v.mod v.declared v.inputs) log
  unfold visit
  split
  · next e => rw [e] at h1; exact h1
  · next l e =>
    rw [e] at h1
    have h2 := hookOn_prefix _ (ioHooks_prefix pass) (outputCalls rowsOf iv.output pass v.mod v.marked v.out) l
    split
    · next e2 => rw [e2] at h2; exact h1.trans h2
    · next l2 e2 => rw [e2] at h2; exact h1.trans (h2.trans (hookOn_prefix _ (pHooks_prefix pass) _ l2))

theorem C207_kept_partial (iv : Intervals) (cancelled : Bool) (pass : Nat) (vs : List Visit) (log : List Entry) :
    log <+: (forward iv cancelled pass vs log).1 := by
  induction vs generalizing log with
  | nil => simp [forward]
  | cons v vs ih =>
    unfold forward
    split
    · exact List.prefix_refl _
    · have h1 := visit_prefix iv pass v log
      split
      · next e => rw [e] at h1; exact h1
      · next e => rw [e] at h1; exact h1.trans (ih _)

/-- A module is left alone by the default hooks if its inputs are good, its output is a tuple of good values or a tensor whose rows are good, and its
parameters are good; so is a pass of such modules. -/
def Visit.Good (v : Visit) : Prop :=
  (∀ x ∈ v.inputs, Checker.Good x) ∧
  (match v.out with | .tuple l => ∀ x ∈ l, Checker.Good x | .tensor x => ∃ l, rowsOf x = .ok l ∧ ∀ y ∈ l, Checker.Good y) ∧
    ∀ q ∈ v.params, ∃ x, q.2 = .ten x ∧ Checker.Good q.2

theorem C207_pass_partial (iv : Intervals) (hi : 0 < iv.input) (ho : 0 < iv.output) (hp : 0 < iv.param) (pass : Nat) (vs : List Visit) (log : List Entry)
    (h : ∀ v ∈ vs, v.Good) : (forward iv false pass vs log).2 = none := by
  have zipGood : ∀ (pre : String) (ns : List String) (l : List Val), (∀ x ∈ l, Good x) →
      ∀ c ∈ (ns.zip l).map (fun q => (pre ++ q.1, q.2)), Good c.2 := by
    intro pre ns l hl c hc
    obtain ⟨q, hq, rfl⟩ := List.mem_map.1 hc
    exact hl _ (List.of_mem_zip hq).2
  have visitNone : ∀ (v : Visit) (log : List Entry), v.Good → (visit iv pass v log).2 = none := by
    intro v log hv
    obtain ⟨g1, g2, g3⟩ := hv
    have hd : ∀ k, 0 < k → ∃ b, due k pass = .ok b := fun k hk => ⟨_, by simp [due, Nat.pos_iff_ne_zero.1 hk]; rfl⟩
    have s1 : ∃ cs, inputCalls iv.input pass v.mod v.declared v.inputs = .ok cs ∧ ∀ c ∈ cs, Good c.2 := by
      obtain ⟨b, hb⟩ := hd _ hi
      unfold inputCalls
      rw [hb]
      cases b
      · exact ⟨[], rfl, by simp⟩
      · exact ⟨_, rfl, zipGood _ _ _ g1⟩
    have s2 : ∃ cs, outputCalls rowsOf iv.output pass v.mod v.marked v.out = .ok cs ∧ ∀ c ∈ cs, Good c.2 := by
      obtain ⟨b, hb⟩ := hd _ ho
      unfold outputCalls
      rw [hb]
      cases b
      · exact ⟨[], rfl, by simp⟩
      · cases hout : v.out with
        | tuple l => rw [hout] at g2; exact ⟨_, rfl, zipGood _ _ _ g2⟩
        | tensor x =>
          rw [hout] at g2
          obtain ⟨l, hl, hg⟩ := g2
          simp only [hl]
          exact ⟨_, rfl, zipGood _ _ _ hg⟩
    have s3 : ∃ cs : List (String × Ten), paramCalls iv.param pass v.mod v.params = .ok (cs.map fun c => (c.1, .ten c.2)) ∧
        ∀ c ∈ cs, Good (.ten c.2) := by
      obtain ⟨b, hb⟩ := hd _ hp
      unfold paramCalls
      cases hl : v.params.getLast? with
      | none => exact ⟨[], rfl, by simp⟩
      | some last =>
        simp only [hb]
        cases b
        · exact ⟨[], rfl, by simp⟩
        · obtain ⟨x, hx, hg⟩ := g3 last (List.mem_of_getLast? hl)
          refine ⟨List.replicate v.params.length (v.mod ++ ".param." ++ last.1, x), by simp [hx], ?_⟩
          intro c hc
          rw [List.eq_of_mem_replicate hc]
          rw [hx] at hg
          exact hg
    obtain ⟨c1, e1, k1⟩ := s1
    obtain ⟨c2, e2, k2⟩ := s2
    obtain ⟨c3, e3, k3⟩ := s3
    obtain ⟨es1, r1, _⟩ := C207_good_partial pass c1 log k1
    obtain ⟨es2, r2, _⟩ := C207_good_partial pass c2 (log ++ es1) k2
    obtain ⟨es3, r3, _⟩ := C207_params_partial pass c3 (log ++ es1 ++ es2) k3
    simp only [visit, hookOn, e1, r1, e2, r2, e3, r3]
  induction vs generalizing log with
  | nil => simp [forward]
  | cons v vs ih =>
    have hv := visitNone v log (h v (by simp))
    unfold forward
    rw [if_neg (by simp)]
    split
    · next e => rw [e] at hv; cases hv
    · exact ih _ (fun w hw => h w (by simp [hw]))

theorem flatten_rows {A : Type} (m : Nat) : ∀ (d : Nat) (l : List A), l.length = d * m →
    ((List.range d).map fun i => (l.drop (i * m)).take m).flatten = l := by
  intro d
  induction d with
  | zero => intro l h; simp at h; simp [h]
  | succ d ih =>
    intro l h
    rw [List.range_succ_eq_map, List.map_cons, List.map_map, List.flatten_cons]
    have e : ((fun i => (l.drop (i * m)).take m) ∘ Nat.succ) = fun i => ((l.drop m).drop (i * m)).take m := by
      funext i
      simp only [Function.comp, List.drop_drop, Nat.succ_mul]
      rw [Nat.add_comm]
    rw [e, ih (l.drop m) (by rw [List.length_drop, h, Nat.succ_mul]; omega)]
    simp

/-- The rows of an output tensor: as many as the first dimension says, of the remaining shape, and together they hold the values of the tensor in order.
A hook that were given all of them would see every value. -/
theorem C207_rows_partial (x : Ten) (d : Nat) (ds : List Nat) (hs : x.shape = d :: ds) (hl : x.vals.length = d * ds.prod) :
    ∃ rows : List Ten, rowsOf (.ten x) = .ok (rows.map .ten) ∧ rows.length = d ∧ (rows.map (·.vals)).flatten = x.vals ∧
      ∀ r ∈ rows, r.kind = x.kind ∧ r.shape = ds ∧ r.vals.length = ds.prod := by
  have hp : ds.foldl (· * ·) 1 = ds.prod := by rw [List.prod_eq_foldl]
  refine ⟨(List.range d).map fun i => ⟨x.kind, ds, (x.vals.drop (i * ds.prod)).take ds.prod⟩, ?_, by simp, ?_, ?_⟩
  · simp [rowsOf, hs, hp]
  · rw [List.map_map]
    exact flatten_rows ds.prod d x.vals hl
  · intro r hr
    obtain ⟨i, hi, rfl⟩ := List.mem_map.1 hr
    refine ⟨rfl, rfl, ?_⟩
    simp only [List.length_take, List.length_drop, hl]
    have : (i + 1) * ds.prod ≤ d * ds.prod := Nat.mul_le_mul_right _ (List.mem_range.1 hi)
    rw [Nat.succ_mul] at this
    omega

/-- A tensor of three rows; the nan in its last row is in no value the hooks are given. -/
example : rowsOf (.ten ⟨.float, [3, 2], [some 1, some 2, some 3, some 4, some 5, none]⟩) =
    .ok [.ten ⟨.float, [2], [some 1, some 2]⟩, .ten ⟨.float, [2], [some 3, some 4]⟩, .ten ⟨.float, [2], [some 5, none]⟩] ∧
    (visit {} 1 ⟨"fc", [], [], none, .tensor (.ten ⟨.float, [3, 2], [some 1, some 2, some 3, some 4, some 5, none]⟩), []⟩ []).2 = none := by
  decide +kernel

/-- `check_shape` accepts exactly the required shape, and raises `CheckError`, not the documented RuntimeError. -/
theorem C207_shape_partial (x : Ten) (required : List Nat) :
    (checkShape x required = .ok () ↔ x.shape = required) ∧ (x.shape ≠ required → checkShape x required = .error checkError ∧ checkError ≠ Err.runtime) := by
  constructor
  · unfold checkShape
    split <;> simp_all
  · intro h
    exact ⟨by simp [checkShape, h], by decide⟩

/-- A linear layer on two inputs, in pass 100: its input, the first row of its output and its last parameter are written. -/
example : forward {} false 100 [⟨"fc", ["x"], [.ten ⟨.float, [2], [some 1, some 3]⟩], none, .tensor (.ten ⟨.float, [1, 2], [some 4, some 8]⟩),
      [("w", .ten ⟨.float, [1], [some 1]⟩), ("b", .ten ⟨.float, [1], [some 0]⟩)]⟩] [] =
    ([⟨"fc.input.self", some (1, 3, 2), 100, none⟩, ⟨"fc.output.0", some (4, 8, 6), 100, none⟩,
      ⟨"fc.param.b", some (0, 0, 0), 100, some [some 0]⟩, ⟨"fc.param.b", some (0, 0, 0), 100, some [some 0]⟩], none) ∧
    Visit.Good ⟨"fc", ["x"], [.ten ⟨.float, [2], [some 1, some 3]⟩], none, .tensor (.ten ⟨.float, [1, 2], [some 4, some 8]⟩),
      [("w", .ten ⟨.float, [1], [some 1]⟩), ("b", .ten ⟨.float, [1], [some 0]⟩)]⟩ := by
  refine ⟨by decide +kernel, ?_, ?_, ?_⟩
  · intro x hx
    simp at hx
    subst hx
    exact ⟨rfl, by simp, by simp⟩
  · refine ⟨[.ten ⟨.float, [2], [some 4, some 8]⟩], by decide +kernel, ?_⟩
    intro y hy
    simp at hy
    subst hy
    exact ⟨rfl, by simp, by simp⟩
  · intro q hq
    simp at hq
    rcases hq with rfl | rfl
    · exact ⟨_, rfl, rfl, by simp, by simp⟩
    · exact ⟨_, rfl, rfl, by simp, by simp⟩

end Machin.Checker
