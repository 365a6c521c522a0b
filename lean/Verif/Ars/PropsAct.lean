import Verif.Ars.PropsUpdate

/-! # Properties of acting in ARS: C148 -/

namespace Machin.Ars

variable {K : Type}

/-- C148, full statement: acting leaves the caller's state as it was, and a call that fails leaves the filters as they were. -/
def C148_full : Prop :=
  ∀ (norm : Filter → ℚ → ℚ) (normalize : Bool) (θ : Params ℚ) (w : List (Entry ℚ)) (fs : Filters) (state : List (String × ℚ)) (type : String),
    (actOn norm normalize θ w fs state type).2.1 = state ∧
    ∀ e, (actOn norm normalize θ w fs state type).2.2 = .error e → (actOn norm normalize θ w fs state type).1 = fs

theorem lookup_filter_ne (l : Filters) (k k' : String) (h : k' ≠ k) : (l.filter fun q => q.1 != k).lookup k' = l.lookup k' := by
  induction l with
  | nil => rfl
  | cons q l ih =>
    by_cases hq : q.1 = k
    · have hb : (k' == q.1) = false := by simpa [hq] using h
      rw [List.filter_cons_of_neg (by simp [hq]), List.lookup_cons, hb]
      exact ih
    · rw [List.filter_cons_of_pos (by simp [hq]), List.lookup_cons, List.lookup_cons, ih]

theorem lookup_cons_ne {A : Type} (l : List (String × A)) (k k' : String) (a : A) (h : k' ≠ k) : ((k, a) :: l).lookup k' = l.lookup k' := by
  have hb : (k' == k) = false := by simpa using h
  rw [List.lookup_cons, hb]

theorem normalize_other (norm : Filter → ℚ → ℚ) : ∀ (state : List (String × ℚ)) (fs : Filters) (k' : String), (∀ p ∈ state, p.1 ≠ k') →
    (normalizeState norm fs state).1.lookup k' = fs.lookup k'
  | [], _, _, _ => rfl
  | (k, v) :: rest, fs, k', h => by
    have hk : k' ≠ k := fun e => h (k, v) (by simp) e.symm
    rw [normalizeState]
    rw [normalize_other norm rest _ k' fun p hp => h p (by simp [hp]), lookup_cons_ne _ _ _ _ hk, lookup_filter_ne _ _ _ hk]

/-- C148: until the first synchronisation a filter normalises with mean 0 and deviation 1, whatever it has observed: values pass unchanged. -/
theorem C148_fresh_partial (vs : List ℚ) : (vs.foldl Filter.observe Filter.new).meanValue = some 0 ∧ (vs.foldl Filter.observe Filter.new).std = some 1 := by
  have key : ∀ (vs : List ℚ) (f : Filter), f.mean = .own (some 0) → f.std = some 1 →
      (vs.foldl Filter.observe f).mean = .own (some 0) ∧ (vs.foldl Filter.observe f).std = some 1 := by
    intro vs
    induction vs with
    | nil => intro f h1 h2; exact ⟨h1, h2⟩
    | cons v vs ih => intro f h1 h2; exact ih (f.observe v) h1 h2
  have := key vs Filter.new rfl rfl
  exact ⟨by unfold Filter.meanValue; rw [this.1], this.2⟩

/-- C148, what holds: without normalisation nothing changes, and the network of the type is called with the caller's state. With normalisation the network of
the type is called with a state that has the same keys in the same order, in which each value is replaced by its normalised value, by the filter of its key
after that filter has observed the value; filters of other keys stay as they are; the caller's dictionary is what the network was called with. Whether a
call fails, and the network that is called, do not depend on the state. -/
theorem C148_act_partial (norm : Filter → ℚ → ℚ) (θ : Params K) (w : List (Entry K)) (fs : Filters) (state : List (String × ℚ)) (type : String) :
    (actOn norm false θ w fs state type).1 = fs ∧ (actOn norm false θ w fs state type).2.1 = state ∧
    (∀ b, (actOn norm b θ w fs state type).2.2 = (network θ w type).map fun net => (net, (actOn norm b θ w fs state type).2.1)) ∧
    ((state.map (·.1)).Nodup → ∀ fs' st' r, actOn norm true θ w fs state type = (fs', st', r) →
      st'.map (·.1) = state.map (·.1) ∧
      (∀ (i : Nat) (k : String) (v : ℚ), state[i]? = some (k, v) →
        st'[i]? = some (k, norm (((fs.lookup k).getD Filter.new).observe v) v) ∧
        fs'.lookup k = some (((fs.lookup k).getD Filter.new).observe v)) ∧
      ∀ k, k ∉ state.map (·.1) → fs'.lookup k = fs.lookup k) := by
  refine ⟨rfl, rfl, ?_, ?_⟩
  · intro b
    unfold actOn
    cases network θ w type <;> rfl
  · intro hnd fs' st' r h
    rw [actOn] at h
    simp only [if_true] at h
    rw [Prod.mk.injEq, Prod.mk.injEq] at h
    obtain ⟨rfl, rfl, -⟩ := h
    clear r
    refine ⟨?_, ?_, ?_⟩
    · clear hnd
      induction state generalizing fs with
      | nil => rfl
      | cons p rest ih => simp only [normalizeState, List.map_cons, ih]
    · induction state generalizing fs with
      | nil => intro i k v h; simp at h
      | cons p rest ih =>
        simp only [List.map_cons, List.nodup_cons] at hnd
        intro i k v h
        cases i with
        | zero =>
          simp only [List.getElem?_cons_zero, Option.some.injEq] at h
          subst h
          simp only [normalizeState, List.getElem?_cons_zero, true_and]
          rw [normalize_other norm rest _ k (by
            intro q hq e
            exact hnd.1 (by rw [← e]; exact List.mem_map_of_mem (f := (·.1)) hq))]
          simp [List.lookup]
        | succ i =>
          simp only [List.getElem?_cons_succ] at h
          have hk : k ≠ p.1 := by
            intro e
            exact hnd.1 (by rw [← e]; exact List.mem_map_of_mem (f := (·.1)) (List.mem_of_getElem? h))
          simp only [normalizeState, List.getElem?_cons_succ]
          have := ih ((p.1, ((fs.lookup p.1).getD Filter.new).observe p.2) :: fs.filter fun q => q.1 != p.1) hnd.2 i k v h
          rw [lookup_cons_ne _ _ _ _ hk, lookup_filter_ne _ _ _ hk] at this
          exact this
    · intro k hk
      apply normalize_other
      intro p hp e
      exact hk (by rw [← e]; exact List.mem_map_of_mem (f := (·.1)) hp)

/-- The normalised value (ars.py:234-236), for filters whose mean and deviation are numbers. -/
def normValue (f : Filter) (x : ℚ) : ℚ := (x - f.meanValue.getD 0) / (f.std.getD 0 + 1 / 100000000)

/-- A filter with mean 1, which divides by 2. -/
def halving : Filter := ⟨⟨2, some 1, some 4⟩, ⟨2, some 1, some 4⟩, .own (some 1), some (2 - 1 / 100000000)⟩

/-- C148 fails: the dictionary of the caller holds the normalised value after the call, so a second call with it normalises twice; and a call with an invalid
type has updated the filter. -/
theorem C148_violated_twice :
    (actOn normValue true [("w", [(1 : ℚ)])] [] [("state", halving)] [("state", 9)] "original").2 = ([("state", 4)], .ok ([("w", [1])], [("state", 4)])) ∧
    (actOn normValue true [("w", [(1 : ℚ)])] [] (actOn normValue true [("w", [(1 : ℚ)])] [] [("state", halving)] [("state", 9)] "original").1
      (actOn normValue true [("w", [(1 : ℚ)])] [] [("state", halving)] [("state", 9)] "original").2.1 "original").2.2 =
      .ok ([("w", [1])], [("state", 3 / 2)]) ∧
    (actOn normValue true [("w", [(1 : ℚ)])] [] [("state", halving)] [("state", 9)] "worst").2.2 = .error .value ∧
    ((actOn normValue true [("w", [(1 : ℚ)])] [] [("state", halving)] [("state", 9)] "worst").1.lookup "state").map (·.rs.n) = some 3 := by
  refine ⟨?_, ?_, ?_, ?_⟩ <;> decide +kernel

theorem C148_violated : ¬ C148_full := by
  intro h
  have := (h normValue true [("w", [1])] [] [("state", halving)] [("state", 9)] "original").1
  rw [C148_violated_twice.1] at this
  simp at this

end Machin.Ars
