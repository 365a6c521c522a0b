import Verif.EnvWrap.Props57

/-! # C58: terminated environments -/

namespace Machin.EnvWrap

/-! ### The for-loop wrapper -/

/-- The flags are exactly the terminations since the last reset. -/
def Tracks {E : Type} (d : Dummy (E × Bool)) : Prop := ∀ i, i < d.n → d.terminal i = (d.envs i).2

/-- C58, full statement for the for-loop wrapper: after any history, the flags are exactly the terminations since the last reset. -/
def C58_full_dummy : Prop :=
  ∀ (E A O X : Type) (s : Sys E A O X) (n : Nat) (envs : Nat → E) (d : Dummy (E × Bool)),
    Dummy.ReachAny s.watched (Dummy.new n fun i => (envs i, false)) d → Tracks d

/-- `step` on environments one of which has its flag set raises the termination error and changes nothing. -/
theorem C58_dummy_guard {E A O X : Type} (s : Sys E A O X) (d : Dummy E) (action : List A) (idx : Option (List Nat))
    (hl : action.length = (idx.getD (List.range d.n)).length) (hr : ∀ i ∈ idx.getD (List.range d.n), i < d.n) (i : Nat)
    (hi : i ∈ idx.getD (List.range d.n)) (ht : d.terminal i = true) :
    d.step s action idx = (d, .error .termination) := by
  unfold Dummy.step
  simp only
  rw [if_neg (by simpa using hl), if_neg, if_pos]
  · rw [List.any_eq_true]; exact ⟨i, hi, ht⟩
  · rw [List.any_eq_true]
    rintro ⟨j, hj, hjn⟩
    have := hr j hj
    simp at hjn
    omega

/-- Conversely the termination error is raised only when the flag of a requested environment is set. -/
theorem C58_dummy_only {E A O X : Type} (s : Sys E A O X) (d : Dummy E) (action : List A) (idx : Option (List Nat))
    (h : (d.step s action idx).2 = .error .termination) :
    ∃ i ∈ idx.getD (List.range d.n), d.terminal i = true := by
  have hno : ∀ (l : List (Nat × A)) (d : Dummy E), (stepEnvs s l d).2 ≠ .error .termination := by
    intro l
    induction l with
    | nil => intro d; simp [stepEnvs]
    | cons p l ih =>
      intro d
      obtain ⟨i, a⟩ := p
      unfold stepEnvs
      split
      · simp
      · rename_i e r _
        have := ih { d with envs := Function.update d.envs i e }
        split
        · simp
        · rename_i d' f hd
          rw [hd] at this
          simpa using this
  unfold Dummy.step at h
  simp only at h
  split at h
  · cases h
  · split at h
    · cases h
    · split at h
      · rename_i ht
        simpa [List.any_eq_true] using ht
      · split at h
        · rename_i d' f hd
          have := hno ((idx.getD (List.range d.n)).zip action) d
          rw [hd] at this
          simp only [Except.error.injEq] at h
          subst h
          exact absurd rfl this
        · split at h <;> cases h

theorem n_resetEnvs {E A O X : Type} (s : Sys E A O X) (is : List Nat) (d : Dummy E) : (resetEnvs s is d).1.n = d.n := by
  induction is generalizing d with
  | nil => rfl
  | cons i is ih =>
    unfold resetEnvs
    split
    · rfl
    · rename_i e o _
      have := ih { d with envs := Function.update d.envs i e }
      split <;> (rename_i h; rw [h] at this; exact this)

/-- Resetting all environments: the watched flags of those visited are off. -/
theorem resetEnvs_flags {E A O X : Type} (s : Sys E A O X) (is : List Nat) (d : Dummy (E × Bool)) (os : List O)
    (h : (resetEnvs s.watched is d).2 = .ok os) :
    ∀ i, i ∈ is ∨ (d.envs i).2 = false → ((resetEnvs s.watched is d).1.envs i).2 = false := by
  induction is generalizing d os with
  | nil => intro i hi; simpa [resetEnvs] using hi
  | cons j js ih =>
    intro i hi
    unfold resetEnvs at h ⊢
    split
    · rename_i e x he
      rw [he] at h
      cases h
    · rename_i e o he
      rw [he] at h
      simp only at h
      have hef : e.2 = false := by
        unfold Sys.watched at he
        simp only at he
        split at he
        · simp at he; rw [← he.1]
        · simp at he
      have := ih { d with envs := Function.update d.envs j e }
      split
      · rename_i d' os' hd
        have h2 := this os' (by rw [hd]) i
        rw [hd] at h2
        apply h2
        by_cases e' : i = j
        · right; subst e'; simpa using hef
        · rcases hi with hi | hi
          · left; simpa [e'] using hi
          · right; simpa [Function.update_of_ne e'] using hi
      · rename_i d' f hd
        rw [hd] at h
        cases h

theorem resetLoop_tracks {E A O X : Type} (s : Sys E A O X) (is : List Nat) (d : Dummy (E × Bool)) (hd : Tracks d)
    (hx : ∀ x, (resetLoop s.watched is d).2 ≠ .error (.env x)) : Tracks (resetLoop s.watched is d).1 := by
  induction is generalizing d with
  | nil => exact hd
  | cons j js ih =>
    unfold resetLoop at hx ⊢
    split
    · exact hd
    · rename_i hj
      rw [if_neg hj] at hx
      split
      · rename_i e x he
        rw [he] at hx
        exact absurd rfl (hx x)
      · rename_i e o he
        rw [he] at hx
        simp only at hx
        have hef : e.2 = false := by
          unfold Sys.watched at he
          simp only at he
          split at he
          · simp at he; rw [← he.1]
          · simp at he
        have ht : Tracks { d with envs := Function.update d.envs j e, terminal := Function.update d.terminal j false } := by
          intro i hi
          simp only
          by_cases e' : i = j
          · subst e'; simp [hef]
          · rw [Function.update_of_ne e', Function.update_of_ne e']; exact hd i hi
        have := ih _ ht (by
          intro x hxx
          split at hx
          · rename_i hd; rw [hd] at hxx; cases hxx
          · rename_i d' f hd
            rw [hd] at hxx
            simp only [Except.error.injEq] at hxx
            subst hxx
            exact hx x rfl)
        split <;> (rename_i h; rw [h] at this; exact this)

/-- Flags of the environments after stepping distinct ones. -/
theorem stepEnvs_flags {E A O X : Type} (s : Sys E A O X) (idx : List Nat) (as : List A) (d : Dummy (E × Bool))
    (hnd : idx.Nodup) (hl : as.length = idx.length) (rs : List (O × Bool)) (h : (stepEnvs s.watched (idx.zip as) d).2 = .ok rs) :
    rs.length = idx.length ∧ (stepEnvs s.watched (idx.zip as) d).1.n = d.n ∧
    (stepEnvs s.watched (idx.zip as) d).1.terminal = d.terminal ∧
    (∀ i, i ∉ idx → (stepEnvs s.watched (idx.zip as) d).1.envs i = d.envs i) ∧
    ∀ (k i : Nat), idx[k]? = some i → ∃ r, rs[k]? = some r ∧ ((stepEnvs s.watched (idx.zip as) d).1.envs i).2 = ((d.envs i).2 || r.2) := by
  induction idx generalizing as d rs with
  | nil => simp [stepEnvs] at h ⊢; exact h
  | cons j js ih =>
    cases as with
    | nil => simp at hl
    | cons a as =>
      have hnd' := List.nodup_cons.mp hnd
      rw [List.zip_cons_cons] at h ⊢
      unfold stepEnvs at h ⊢
      split
      · rename_i e x he
        rw [he] at h
        cases h
      · rename_i e r he
        rw [he] at h
        simp only at h
        have hef : e.2 = ((d.envs j).2 || r.2) := by
          unfold Sys.watched at he
          simp only at he
          split at he
          · simp at he; rw [← he.1, ← he.2]
          · simp at he
        split
        · rename_i d' rs' hd
          rw [hd] at h
          simp only [Except.ok.injEq] at h
          subst h
          obtain ⟨i1, i2, i3, i4, i5⟩ := ih as { d with envs := Function.update d.envs j e } hnd'.2 (by simpa using hl) rs' (by rw [hd])
          rw [hd] at i2 i3 i4 i5
          simp only at i2 i3 i4 i5 ⊢
          refine ⟨by simp [i1], i2, i3, ?_, ?_⟩
          · intro i hi
            rw [i4 i (fun h => hi (by simp [h])), Function.update_of_ne (by rintro rfl; simp at hi)]
          · intro k i hk
            cases k with
            | zero =>
              simp at hk
              subst hk
              refine ⟨r, by simp, ?_⟩
              rw [i4 j hnd'.1]
              simpa using hef
            | succ k =>
              simp only [List.getElem?_cons_succ] at hk
              obtain ⟨r', r1, r2⟩ := i5 k i hk
              have : i ≠ j := by rintro rfl; exact hnd'.1 (List.mem_of_getElem? hk)
              refine ⟨r', by simpa using r1, ?_⟩
              rw [r2, Function.update_of_ne this]
        · rename_i d' f hd
          rw [hd] at h
          cases h

theorem orTerminal_aux (old : Nat → Bool) (idx : List Nat) (ts : List Bool) (hnd : idx.Nodup) (hl : ts.length = idx.length)
    (t : Nat → Bool) :
    (∀ i, i ∉ idx → ((idx.zip ts).foldl (fun t p => Function.update t p.1 (old p.1 || p.2)) t) i = t i) ∧
    ∀ (k i : Nat) (b : Bool), idx[k]? = some i → ts[k]? = some b →
      ((idx.zip ts).foldl (fun t p => Function.update t p.1 (old p.1 || p.2)) t) i = (old i || b) := by
  induction idx generalizing ts t with
  | nil => simp
  | cons j js ih =>
    cases ts with
    | nil => simp at hl
    | cons b ts =>
      have hnd' := List.nodup_cons.mp hnd
      obtain ⟨i1, i2⟩ := ih ts hnd'.2 (by simpa using hl) (Function.update t j (old j || b))
      refine ⟨?_, ?_⟩
      · intro i hi
        rw [List.zip_cons_cons, List.foldl_cons, i1 i (fun h => hi (by simp [h])), Function.update_of_ne (by rintro rfl; simp at hi)]
      · intro k i b' hk hb
        rw [List.zip_cons_cons, List.foldl_cons]
        cases k with
        | zero =>
          simp at hk hb
          subst hk
          subst hb
          rw [i1 j hnd'.1]
          simp
        | succ k => exact i2 k i b' (by simpa using hk) (by simpa using hb)

theorem orTerminal_spec (old : Nat → Bool) (idx : List Nat) (ts : List Bool) (hnd : idx.Nodup) (hl : ts.length = idx.length) :
    (∀ i, i ∉ idx → orTerminal old idx ts i = old i) ∧
    ∀ (k i : Nat) (b : Bool), idx[k]? = some i → ts[k]? = some b → orTerminal old idx ts i = (old i || b) :=
  orTerminal_aux old idx ts hnd hl old

theorem step_tracks {E A O X : Type} (s : Sys E A O X) (d : Dummy (E × Bool)) (hd : Tracks d) (action : List A)
    (idx : Option (List Nat)) (hnd : (idx.getD (List.range d.n)).Nodup) (hx : ∀ x, (d.step s.watched action idx).2 ≠ .error (.env x)) :
    Tracks (d.step s.watched action idx).1 := by
  unfold Dummy.step at hx ⊢
  simp only at hx ⊢
  split
  · exact hd
  · rename_i hl
    rw [if_neg hl] at hx
    split
    · exact hd
    · rename_i hr
      rw [if_neg hr] at hx
      split
      · exact hd
      · rename_i ht
        rw [if_neg ht] at hx
        have hl' : action.length = (idx.getD (List.range d.n)).length := by simpa using hl
        generalize hg : idx.getD (List.range d.n) = is at *
        split
        · rename_i d' f hs
          rw [hs] at hx
          -- an error of `stepEnvs` is always one of an environment
          have herr : ∀ (l : List (Nat × A)) (d d' : Dummy (E × Bool)) (f : Fail X), stepEnvs s.watched l d = (d', .error f) →
              ∃ x, f = .env x := by
            intro l
            induction l with
            | nil => intro d d' f h; simp [stepEnvs] at h
            | cons p l ih =>
              intro d d' f h
              obtain ⟨i, a⟩ := p
              unfold stepEnvs at h
              split at h
              · simp at h; exact ⟨_, h.2.symm⟩
              · split at h
                · simp at h
                · rename_i d'' f' hh
                  simp at h
                  obtain ⟨x, hxx⟩ := ih _ _ _ hh
                  exact ⟨x, by rw [← h.2, hxx]⟩
          obtain ⟨x, rfl⟩ := herr _ _ _ _ hs
          exact absurd rfl (hx x)
        · rename_i d' rs hs
          obtain ⟨f1, f2, f3, f4, f5⟩ := stepEnvs_flags s is action d hnd hl' rs (by rw [hs])
          rw [hs] at f2 f3 f4 f5
          simp only at f2 f3 f4 f5
          split
          · rename_i he
            subst he
            have : is = [] := by
              cases is with
              | nil => rfl
              | cons _ _ => simp at f1
            subst this
            intro i hi
            simp only at hi ⊢
            rw [f3, f4 i (by simp)]
            exact hd i (by omega)
          · obtain ⟨o1, o2⟩ := orTerminal_spec d'.terminal is (rs.map (·.2)) hnd (by simp [f1])
            intro i hi
            simp only at hi ⊢
            by_cases hm : i ∈ is
            · obtain ⟨k, hk⟩ := List.mem_iff_getElem?.mp hm
              obtain ⟨r, r1, r2⟩ := f5 k i hk
              rw [o2 k i r.2 hk (by simp [r1]), r2, f3, hd i (by omega)]
            · rw [o1 i hm, f3, f4 i hm]
              exact hd i (by omega)

/-- After any history in which no environment raised an exception and no `step` names an environment twice, the flags are exactly
the terminations since the last reset; with `C58_dummy_guard` and `C58_dummy_only` this is the property for the for-loop wrapper.
Missing: exceptions of environments and repeated indexes (`C58_violated_raise`, `C58_violated_twice`). -/
theorem C58_dummy_partial {E A O X : Type} (s : Sys E A O X) (n : Nat) (envs : Nat → E) (d : Dummy (E × Bool))
    (h : Dummy.Reach s.watched (Dummy.new n fun i => (envs i, false)) d) : Tracks d := by
  induction h with
  | init => intro i _; rfl
  | @op d o h hx hd ih =>
    cases o with
    | reset idx =>
      simp only [Dummy.op] at hx ⊢
      cases idx with
      | some is =>
        apply resetLoop_tracks s is d ih
        intro x hxx
        apply hx x
        simp only [Dummy.reset]
        rw [hxx]
        rfl
      | none =>
        simp only [Dummy.reset] at hx ⊢
        cases hr : resetEnvs s.watched (List.range d.n) d with
        | mk d' r =>
          cases r with
          | ok os =>
            simp only
            have hn := n_resetEnvs s.watched (List.range d.n) d
            have := resetEnvs_flags s (List.range d.n) d os (by rw [hr])
            rw [hr] at this hn
            intro i hi
            simp only at hi ⊢ this hn
            exact (this i (Or.inl (by simp; omega))).symm
          | error f =>
            rw [hr] at hx
            have herr : ∀ (l : List Nat) (d d' : Dummy (E × Bool)) (f : Fail X), resetEnvs s.watched l d = (d', .error f) →
                ∃ x, f = .env x := by
              intro l
              induction l with
              | nil => intro d d' f h; simp [resetEnvs] at h
              | cons p l ih =>
                intro d d' f h
                unfold resetEnvs at h
                split at h
                · simp at h; exact ⟨_, h.2.symm⟩
                · split at h
                  · simp at h
                  · rename_i d'' f' hh
                    simp at h
                    obtain ⟨x, hxx⟩ := ih _ _ _ hh
                    exact ⟨x, by rw [← h.2, hxx]⟩
            obtain ⟨x, rfl⟩ := herr _ _ _ _ hr
            exact absurd rfl (hx x)
    | step action idx =>
      simp only [Dummy.op] at hx ⊢
      apply step_tracks s d ih
      · cases idx with
        | none => simpa using List.nodup_range
        | some is => exact hd action is rfl
      · intro x hxx
        apply hx x
        rw [hxx]
        rfl

/-- The first environment of two terminates. -/
example : let d := ((Dummy.new 2 fun i => (10 * i, false)).step counter.watched [5, 1] none)
    d.2 = .ok [(500, true), (110, false)] ∧ d.1.active = [1] ∧
      (d.1.step counter.watched [1, 1] none).2 = .error .termination := by
  refine ⟨by rfl, by rfl, by rfl⟩

/-- `active` lists exactly the environments that have not terminated since their last reset. -/
theorem C58_active_partial {E A O X : Type} (s : Sys E A O X) (n : Nat) (envs : Nat → E) (d : Dummy (E × Bool))
    (h : Dummy.Reach s.watched (Dummy.new n fun i => (envs i, false)) d) (i : Nat) :
    i ∈ d.active ↔ i < d.n ∧ (d.envs i).2 = false := by
  unfold Dummy.active
  rw [List.mem_filter, List.mem_range]
  constructor
  · rintro ⟨h1, h2⟩
    rw [C58_dummy_partial s n envs d h i h1] at h2
    exact ⟨h1, by simpa using h2⟩
  · rintro ⟨h1, h2⟩
    rw [C58_dummy_partial s n envs d h i h1]
    exact ⟨h1, by simpa using h2⟩

/-- Environment 0 terminates, environment 1 raises: the termination is not recorded, `active` still lists environment 0 and `step`
accepts it. -/
theorem C58_violated_raise :
    let d := ((Dummy.new 2 fun i => (10 * i, false)).step counter.watched [5, 9] none).1
    (d.envs 0).2 = true ∧ d.active = [0, 1] ∧ (d.step counter.watched [1] (some [0])).2 = .ok [(101, false)] := by
  refine ⟨by rfl, by rfl, by rfl⟩

/-- An environment named twice that terminates in the first step: the second answer overwrites the flag. -/
theorem C58_violated_twice :
    let d := ((Dummy.new 1 fun i => (10 * i, false)).step counter.watched [5, 1] (some [0, 0])).1
    (d.envs 0).2 = true ∧ d.active = [0] := by
  refine ⟨by rfl, by rfl⟩

theorem C58_violated_dummy : ¬ C58_full_dummy := by
  intro h
  have hr : Dummy.ReachAny counter.watched (Dummy.new 2 fun i => (10 * i, false))
      ((Dummy.new 2 fun i => (10 * i, false)).op counter.watched (.step [5, 9] none)).1 := .op _ .init
  have := h Nat Nat Nat String counter 2 (fun i => 10 * i) _ hr 0 (by decide)
  revert this
  decide

/-! ### The wrapper with worker processes -/

/-- C58, full statement for the other wrapper: `step` on an environment whose flag is set raises the termination error. -/
def C58_full_sub : Prop :=
  ∀ (E A O X : Type) (s : Sys E A O X) (st : Sub E A O X) (action : List A) (idx : List Nat) (sched : List Ev) (i : Nat),
    Clean st → action.length = idx.length → (∀ j ∈ idx, j < st.n) → i ∈ idx → st.terminal i = true →
    (st.step s action (some idx) sched).2 = .fail .termination

/-- It never raises the termination error. -/
theorem C58_sub_never_partial {E A O X : Type} (s : Sys E A O X) (st : Sub E A O X) (action : List A) (idx : Option (List Nat))
    (sched : List Ev) : (st.step s action idx sched).2 ≠ .fail .termination := by
  have hcol : ∀ (want : Nat) (evs : List Ev) (st : Sub E A O X) (got : PyDict Nat (Val O)),
      (collect s want evs st got).2 ≠ .fail .termination := by
    intro want evs
    induction evs with
    | nil => intro st got; unfold collect; split <;> simp
    | cons ev evs ih =>
      intro st got
      cases ev with
      | worker i =>
        rw [collect]
        split
        · simp
        · exact ih _ _
      | get =>
        rw [collect]
        split
        · simp
        · split
          · exact ih _ _
          · exact ih _ _
          · simp
  have hlook : ∀ (got : PyDict Nat (Val O)) (is : List Nat), lookAll (X := X) got is ≠ .fail .termination := by
    intro got is
    induction is with
    | nil => simp [lookAll]
    | cons i is ih =>
      unfold lookAll
      split
      · simp
      · split
        · simp
        · rename_i f hf
          rw [hf] at ih
          exact ih
        · simp
  have hcall : ∀ (is : List Nat) (args : List (Cmd A)), (callMethod s st is args sched).2 ≠ .fail .termination := by
    intro is args
    unfold callMethod
    split
    · simp
    · rename_i st' _
      have := hcol is.length sched st' []
      split
      · simp
      · rename_i st'' f hf
        rw [hf] at this
        simpa using this
      · exact hlook _ _
  have hsteps : ∀ vs : List (Val O), asSteps (X := X) vs ≠ .error .termination := by
    intro vs
    induction vs with
    | nil => simp [asSteps]
    | cons v vs ih =>
      cases v with
      | obs o => simp [asSteps]
      | stepped o t =>
        unfold asSteps
        split
        · simp
        · rename_i f hf
          rw [hf] at ih
          exact ih
  unfold Sub.step
  simp only
  split
  · simp
  · have := hcall (idx.getD (List.range st.n)) (action.map .step)
    split
    · simp
    · rename_i f hf
      rw [hf] at this
      simpa using this
    · rename_i vs _
      have := hsteps vs
      split
      · rename_i f hf
        rw [hf] at this
        simpa using this
      · simp

/-- A terminated environment is stepped again. -/
theorem C58_violated_sub_step :
    let st := ((Sub.new 1 (fun i => 10 * i) : Sub Nat Nat Nat String).step counter [5] none [.worker 0, .get]).1
    st.active = [] ∧ st.envs 0 = 1 ∧
      (st.step counter [1] none [.worker 0, .get]).2 = .ok [(101, false)] ∧ (st.step counter [1] none [.worker 0, .get]).1.envs 0 = 2 := by
  refine ⟨by rfl, by rfl, by rfl, by rfl⟩

theorem C58_violated_sub : ¬ C58_full_sub := by
  intro h
  refine C58_sub_never_partial counter _ _ _ _ (h Nat Nat Nat String counter
    ⟨1, fun _ => 0, fun _ => [], [], fun _ => true⟩ [1] [0] [] 0 ⟨fun _ => rfl, rfl⟩ rfl (by decide) (by decide) rfl)

/-! ### Both wrappers -/

/-- Stepping distinct environments one after the other: every one runs its own command on its own state. -/
theorem stepEnvs_all {E A O X : Type} (s : Sys E A O X) (hx : ∀ e a, ∃ r, (s.step e a).2 = .ok r) (idx : List Nat) (as : List A)
    (d : Dummy E) (hnd : idx.Nodup) (hl : as.length = idx.length) :
    ∃ rs, (stepEnvs s (idx.zip as) d).2 = .ok rs ∧ rs.length = idx.length ∧
      (stepEnvs s (idx.zip as) d).1 = { d with envs := after s idx (as.map .step) d.envs } ∧
      ∀ (k i : Nat) a, idx[k]? = some i → as[k]? = some a → ∃ r, rs[k]? = some r ∧ (s.step (d.envs i) a).2 = .ok r := by
  induction idx generalizing as d with
  | nil => refine ⟨[], by simp [stepEnvs], rfl, ?_, by simp⟩; rfl
  | cons j js ih =>
    cases as with
    | nil => simp at hl
    | cons a as =>
      have hnd' := List.nodup_cons.mp hnd
      rw [List.zip_cons_cons]
      unfold stepEnvs
      obtain ⟨r, hr⟩ := hx (d.envs j) a
      cases hs : s.step (d.envs j) a with
      | mk e r' =>
        rw [hs] at hr
        simp only at hr
        subst hr
        simp only
        obtain ⟨rs, i1, i2, i3, i4⟩ := ih as { d with envs := Function.update d.envs j e } hnd'.2 (by simpa using hl)
        cases hq : stepEnvs s (js.zip as) { d with envs := Function.update d.envs j e } with
        | mk d' q =>
          rw [hq] at i1 i3
          simp only at i1 i3
          subst i1
          refine ⟨r :: rs, rfl, by simp [i2], ?_, ?_⟩
          · simp only
            rw [i3]
            congr 1
            funext i
            unfold after
            rw [List.map_cons, cmdFor_cons]
            by_cases e' : j = i
            · subst e'
              rw [if_pos rfl, cmdFor_not_mem _ _ _ hnd'.1]
              simp [Sys.run, hs]
            · rw [if_neg e']
              simp only [Function.update_of_ne (Ne.symm e')]
          · intro k i b hk hb
            cases k with
            | zero =>
              simp at hk hb
              subst hk
              subst hb
              exact ⟨r, by simp, by rw [hs]⟩
            | succ k =>
              simp only [List.getElem?_cons_succ] at hk hb
              obtain ⟨r', r1, r2⟩ := i4 k i b hk hb
              have : i ≠ j := by rintro rfl; exact hnd'.1 (List.mem_of_getElem? hk)
              refine ⟨r', by simpa using r1, ?_⟩
              simpa [Function.update_of_ne this] using r2

theorem asSteps_map {O X : Type} (rs : List (O × Bool)) :
    asSteps (X := X) (rs.map fun p => Val.stepped p.1 p.2) = .ok rs := by
  induction rs with
  | nil => rfl
  | cons r rs ih => simp [asSteps, ih]

theorem terminal_callMethod {E A O X : Type} (s : Sys E A O X) (st : Sub E A O X) (idxs : List Nat) (args : List (Cmd A))
    (sched : List Ev) : (callMethod s st idxs args sched).1.terminal = st.terminal := by
  have hput : ∀ (is : List Nat) (as : List (Cmd A)) (st : Sub E A O X), (putAll is as st).1.terminal = st.terminal := by
    intro is
    induction is with
    | nil => intro as st; rfl
    | cons i is ih =>
      intro as st
      unfold putAll
      split
      · rfl
      · cases as with
        | nil => rfl
        | cons a as => simp only [ih]
  have hw : ∀ (st : Sub E A O X) i, (workerStep s st i).terminal = st.terminal := by
    intro st i
    unfold workerStep
    split <;> rfl
  have hcol : ∀ (want : Nat) (evs : List Ev) (st : Sub E A O X) (got : PyDict Nat (Val O)),
      (collect s want evs st got).1.terminal = st.terminal := by
    intro want evs
    induction evs with
    | nil => intro st got; unfold collect; split <;> rfl
    | cons ev evs ih =>
      intro st got
      cases ev with
      | worker i =>
        rw [collect]
        split
        · rfl
        · rw [ih, hw]
      | get =>
        rw [collect]
        split
        · rfl
        · split
          · exact ih _ _
          · rw [ih]
          · rfl
  unfold callMethod
  have h1 := hput idxs args st
  revert h1
  generalize putAll idxs args st = r
  obtain ⟨a, b⟩ := r
  intro h1
  cases b with
  | false => exact h1
  | true =>
    simp only
    have h2 := hcol idxs.length sched a []
    revert h2
    generalize collect s idxs.length sched a [] = r
    obtain ⟨a', b'⟩ := r
    intro h2
    cases b' <;> exact h2.trans h1

/-- Both wrappers behave alike as long as no flag of a requested environment is set and no environment raises: same answers, same
environments and same flags afterwards, whatever the order in which the workers answer. Missing: the cases in which they differ
(`C58_violated_sub`). -/
theorem C58_alike_partial {E A O X : Type} (s : Sys E A O X) (d : Dummy E) (st : Sub E A O X) (hn : st.n = d.n)
    (henv : st.envs = d.envs) (hterm : st.terminal = d.terminal) (hc : Clean st) (action : List A) (idx : Option (List Nat))
    (hnd : (idx.getD (List.range d.n)).Nodup) (hne : idx.getD (List.range d.n) ≠ []) (hr : ∀ i ∈ idx.getD (List.range d.n), i < d.n)
    (ht : ∀ i ∈ idx.getD (List.range d.n), d.terminal i = false) (hl : action.length = (idx.getD (List.range d.n)).length)
    (hx : ∀ e a, ∃ r, (s.step e a).2 = .ok r) (sched : List Ev) (hw : (st.step s action idx sched).2 ≠ .waiting) :
    ∃ rs, (d.step s action idx).2 = .ok rs ∧ (st.step s action idx sched).2 = .ok rs ∧
      (st.step s action idx sched).1.envs = (d.step s action idx).1.envs ∧
      (st.step s action idx sched).1.terminal = (d.step s action idx).1.terminal ∧ Clean (st.step s action idx sched).1 := by
  generalize hg : idx.getD (List.range d.n) = is at *
  have hgs : idx.getD (List.range st.n) = is := by rw [hn, hg]
  obtain ⟨rs, p1, p2, p3, p4⟩ := stepEnvs_all s hx is action d hnd hl
  have hdum : d.step s action idx =
      ({ d with envs := after s is (action.map .step) d.envs, terminal := orTerminal d.terminal is (rs.map (·.2)) }, .ok rs) := by
    unfold Dummy.step
    simp only [hg]
    rw [if_neg (by simpa using hl), if_neg, if_neg]
    · cases hq : stepEnvs s (is.zip action) d with
      | mk d' q =>
        rw [hq] at p1 p3
        simp only at p1 p3
        subst p1
        subst p3
        simp only
        rw [if_neg]
        intro h
        subst h
        exact hne (List.length_eq_zero_iff.mp p2.symm)
    · rw [List.any_eq_true]
      rintro ⟨i, hi, h⟩
      rw [ht i hi] at h
      cases h
    · rw [List.any_eq_true]
      rintro ⟨i, hi, h⟩
      have := hr i hi
      simp at h
      omega
  have hcall := C57_call s st hc is (action.map .step) hnd (by rw [hn]; exact hr) (by simpa using hl) sched
  have hterm' := terminal_callMethod s st is (action.map .step) sched
  unfold Sub.step at hw ⊢
  simp only [hgs] at hw ⊢
  rw [if_neg (by simpa using hl)] at hw ⊢
  rcases hcall with h | ⟨vs, h1, h2, h3, h4, h5⟩ | ⟨k, i, c, x, c1, c2, c3, -⟩
  · revert h hw
    generalize callMethod s st is (action.map .step) sched = r
    obtain ⟨a, b⟩ := r
    rintro hw rfl
    exact absurd rfl hw
  · have hvs : vs = rs.map fun p => Val.stepped p.1 p.2 := by
      apply List.ext_getElem?
      intro k
      by_cases hk : k < is.length
      · have hki : is[k]? = some is[k] := List.getElem?_eq_getElem hk
        have hka : action[k]? = some (action[k]'(by omega)) := List.getElem?_eq_getElem (by omega)
        obtain ⟨v, v1, v2⟩ := h3 k is[k] (.step (action[k]'(by omega))) hki (by simp [hka])
        obtain ⟨r, r1, r2⟩ := p4 k is[k] _ hki hka
        rw [v1, List.getElem?_map, r1]
        rw [henv] at v2
        simp only [Sys.run] at v2
        rw [r2] at v2
        simp [Except.map] at v2
        simp [v2]
      · rw [List.getElem?_eq_none (by omega), List.getElem?_eq_none (by simp; omega)]
    revert h1 h4 h5 hterm'
    generalize callMethod s st is (action.map .step) sched = r
    obtain ⟨a, b⟩ := r
    rintro hterm' rfl h4 h5
    simp only at hterm' h4 h5
    simp only
    rw [hvs, asSteps_map]
    refine ⟨rs, by rw [hdum], rfl, ?_, ?_, h4⟩
    · rw [hdum]; simp only; rw [h5, henv]
    · rw [hdum]; simp only; rw [hterm', hterm]
  · rw [List.getElem?_map] at c2
    cases ha : action[k]? with
    | none => rw [ha] at c2; cases c2
    | some a =>
      rw [ha] at c2
      simp at c2
      subst c2
      obtain ⟨r, hr'⟩ := hx (st.envs i) a
      simp [Sys.run, hr', Except.map] at c3

/-- Two environments, the second answers first. -/
example : ((Sub.new 2 (fun i => 10 * i) : Sub Nat Nat Nat String).step counter [5, 1] none [.worker 1, .worker 0, .get, .get]).2 =
    .ok [(500, true), (110, false)] ∧ ((Dummy.new 2 fun i => 10 * i).step counter [5, 1] none).2 = .ok [(500, true), (110, false)] := by
  refine ⟨by rfl, by rfl⟩

/-! ### `reset` -/

theorem resetEnvs_all {E A O X : Type} (s : Sys E A O X) (hx : ∀ e, ∃ o, (s.reset e).2 = .ok o) (idx : List Nat)
    (d : Dummy E) (hnd : idx.Nodup) :
    ∃ os, (resetEnvs s idx d).2 = .ok os ∧ os.length = idx.length ∧
      (resetEnvs s idx d).1 = { d with envs := fun i => if i ∈ idx then (s.reset (d.envs i)).1 else d.envs i } ∧
      ∀ (k i : Nat), idx[k]? = some i → ∃ o, os[k]? = some o ∧ (s.reset (d.envs i)).2 = .ok o := by
  induction idx generalizing d with
  | nil => exact ⟨[], rfl, rfl, by simp [resetEnvs], by simp⟩
  | cons j js ih =>
    have hnd' := List.nodup_cons.mp hnd
    unfold resetEnvs
    obtain ⟨o, ho⟩ := hx (d.envs j)
    cases hs : s.reset (d.envs j) with
    | mk e o' =>
      rw [hs] at ho
      simp only at ho
      subst ho
      simp only
      obtain ⟨os, i1, i2, i3, i4⟩ := ih { d with envs := Function.update d.envs j e } hnd'.2
      cases hq : resetEnvs s js { d with envs := Function.update d.envs j e } with
      | mk d' q =>
        rw [hq] at i1 i3
        simp only at i1 i3
        subst i1
        refine ⟨o :: os, rfl, by simp [i2], ?_, ?_⟩
        · simp only
          rw [i3]
          congr 1
          funext i
          by_cases e' : i = j
          · subst e'
            simp [hnd'.1, hs]
          · simp [e', Function.update_of_ne e']
        · intro k i hk
          cases k with
          | zero =>
            simp at hk
            subst hk
            exact ⟨o, by simp, by rw [hs]⟩
          | succ k =>
            simp only [List.getElem?_cons_succ] at hk
            obtain ⟨r', r1, r2⟩ := i4 k i hk
            have : i ≠ j := by rintro rfl; exact hnd'.1 (List.mem_of_getElem? hk)
            exact ⟨r', by simpa using r1, by simpa [Function.update_of_ne this] using r2⟩

theorem resetLoop_all {E A O X : Type} (s : Sys E A O X) (hx : ∀ e, ∃ o, (s.reset e).2 = .ok o) (idx : List Nat)
    (d : Dummy E) (hnd : idx.Nodup) (hr : ∀ i ∈ idx, i < d.n) :
    ∃ os, (resetLoop s idx d).2 = .ok os ∧ os.length = idx.length ∧
      (resetLoop s idx d).1 = ⟨d.n, fun i => if i ∈ idx then (s.reset (d.envs i)).1 else d.envs i,
        fun i => if i ∈ idx then false else d.terminal i⟩ ∧
      ∀ (k i : Nat), idx[k]? = some i → ∃ o, os[k]? = some o ∧ (s.reset (d.envs i)).2 = .ok o := by
  induction idx generalizing d with
  | nil => exact ⟨[], rfl, rfl, by simp [resetLoop], by simp⟩
  | cons j js ih =>
    have hnd' := List.nodup_cons.mp hnd
    unfold resetLoop
    have hj := hr j (by simp)
    rw [if_neg (by omega)]
    obtain ⟨o, ho⟩ := hx (d.envs j)
    cases hs : s.reset (d.envs j) with
    | mk e o' =>
      rw [hs] at ho
      simp only at ho
      subst ho
      simp only
      obtain ⟨os, i1, i2, i3, i4⟩ := ih ⟨d.n, Function.update d.envs j e, Function.update d.terminal j false⟩ hnd'.2
        (fun i hi => hr i (by simp [hi]))
      cases hq : resetLoop s js ⟨d.n, Function.update d.envs j e, Function.update d.terminal j false⟩ with
      | mk d' q =>
        rw [hq] at i1 i3
        simp only at i1 i3
        subst i1
        refine ⟨o :: os, rfl, by simp [i2], ?_, ?_⟩
        · simp only
          rw [i3]
          congr 1
          · funext i
            by_cases e' : i = j
            · subst e'
              simp [hnd'.1, hs]
            · simp [e', Function.update_of_ne e']
          · funext i
            by_cases e' : i = j
            · subst e'; simp
            · simp [e', Function.update_of_ne e']
        · intro k i hk
          cases k with
          | zero =>
            simp at hk
            subst hk
            exact ⟨o, by simp, by rw [hs]⟩
          | succ k =>
            simp only [List.getElem?_cons_succ] at hk
            obtain ⟨r', r1, r2⟩ := i4 k i hk
            have : i ≠ j := by rintro rfl; exact hnd'.1 (List.mem_of_getElem? hk)
            exact ⟨r', by simpa using r1, by simpa [Function.update_of_ne this] using r2⟩

/-- `reset` of distinct environments that do not raise, with the for-loop wrapper: the `k`-th observation is that of the `k`-th requested
environment, exactly the requested environments are reset, and exactly their flags are cleared. -/
theorem C58_reset_dummy_partial {E A O X : Type} (s : Sys E A O X) (hx : ∀ e, ∃ o, (s.reset e).2 = .ok o) (d : Dummy E)
    (idx : Option (List Nat)) (hnd : (idx.getD (List.range d.n)).Nodup) (hr : ∀ i ∈ idx.getD (List.range d.n), i < d.n) :
    ∃ os, (d.reset s idx).2 = .ok os ∧ os.length = (idx.getD (List.range d.n)).length ∧
      (∀ (k i : Nat), (idx.getD (List.range d.n))[k]? = some i → ∃ o, os[k]? = some o ∧ (s.reset (d.envs i)).2 = .ok o) ∧
      (∀ i, (d.reset s idx).1.envs i = if i ∈ idx.getD (List.range d.n) then (s.reset (d.envs i)).1 else d.envs i) ∧
      ∀ i < d.n, (d.reset s idx).1.terminal i = if i ∈ idx.getD (List.range d.n) then false else d.terminal i := by
  cases idx with
  | none =>
    simp only [Option.getD_none] at hnd hr ⊢
    obtain ⟨os, h1, h2, h3, h4⟩ := resetEnvs_all s hx (List.range d.n) d hnd
    unfold Dummy.reset
    cases hq : resetEnvs s (List.range d.n) d with
    | mk d' q =>
      rw [hq] at h1 h3
      simp only at h1 h3
      subst h1
      subst h3
      refine ⟨os, rfl, h2, h4, fun i => rfl, ?_⟩
      intro i hi
      simp [hi]
  | some is =>
    simp only [Option.getD_some] at hnd hr ⊢
    obtain ⟨os, h1, h2, h3, h4⟩ := resetLoop_all s hx is d hnd hr
    unfold Dummy.reset
    refine ⟨os, h1, h2, h4, ?_, ?_⟩
    · intro i; rw [h3]
    · intro i _; rw [h3]

/-- The same for the wrapper with worker processes, whatever the order in which they answer. -/
theorem C58_reset_sub_partial {E A O X : Type} (s : Sys E A O X) (hx : ∀ e, ∃ o, (s.reset e).2 = .ok o) (st : Sub E A O X) (hc : Clean st)
    (idx : Option (List Nat)) (hnd : (idx.getD (List.range st.n)).Nodup) (hr : ∀ i ∈ idx.getD (List.range st.n), i < st.n) (sched : List Ev)
    (hw : (st.reset s idx sched).2 ≠ .waiting) :
    ∃ vs, (st.reset s idx sched).2 = .ok vs ∧ vs.length = (idx.getD (List.range st.n)).length ∧
      (∀ (k i : Nat), (idx.getD (List.range st.n))[k]? = some i → ∃ o, vs[k]? = some (.obs o) ∧ (s.reset (st.envs i)).2 = .ok o) ∧
      (∀ i, (st.reset s idx sched).1.envs i = if i ∈ idx.getD (List.range st.n) then (s.reset (st.envs i)).1 else st.envs i) ∧
      (∀ i, (st.reset s idx sched).1.terminal i = if i ∈ idx.getD (List.range st.n) then false else st.terminal i) ∧
      Clean (st.reset s idx sched).1 := by
  generalize hg : idx.getD (List.range st.n) = is at *
  have hany : ¬ (is.any (fun i => st.n ≤ i)) = true := by
    rw [List.any_eq_true]
    rintro ⟨i, hi, h⟩
    have := hr i hi
    simp at h
    omega
  have hrs : st.reset s idx sched =
      callMethod s { st with terminal := is.foldl (fun t i => Function.update t i false) st.terminal } is (is.map fun _ => .reset) sched := by
    unfold Sub.reset
    simp only [hg]
    rw [if_neg hany]
  have hfold : ∀ (is : List Nat) (t : Nat → Bool) (i : Nat), is.foldl (fun t i => Function.update t i false) t i = if i ∈ is then false else t i := by
    intro is
    induction is with
    | nil => intro t i; simp
    | cons j js ih =>
      intro t i
      rw [List.foldl_cons, ih]
      by_cases h1 : i ∈ js
      · simp [h1]
      · by_cases h2 : i = j
        · subst h2; simp
        · simp [h1, h2]
  have hcall := C57_call s { st with terminal := is.foldl (fun t i => Function.update t i false) st.terminal } hc is (is.map fun _ => .reset)
    hnd hr (by simp) sched
  have hterm := terminal_callMethod s { st with terminal := is.foldl (fun t i => Function.update t i false) st.terminal } is
    (is.map fun _ => .reset) sched
  rw [hrs] at hw ⊢
  rcases hcall with h | ⟨vs, h1, h2, h3, h4, h5⟩ | ⟨k, i, c, x, c1, c2, c3, -⟩
  · exact absurd h hw
  · refine ⟨vs, h1, h2, ?_, ?_, ?_, h4⟩
    · intro k i hk
      obtain ⟨v, v1, v2⟩ := h3 k i .reset hk (by rw [List.getElem?_map, hk]; rfl)
      obtain ⟨o, ho⟩ := hx (st.envs i)
      simp only [Sys.run, ho, Except.map, Except.ok.injEq] at v2
      exact ⟨o, by rw [v1, v2], ho⟩
    · intro i
      rw [h5]
      unfold after
      by_cases hi : i ∈ is
      · obtain ⟨k, hk⟩ := List.mem_iff_getElem?.mp hi
        rw [cmdFor_get is (is.map fun _ => .reset) hnd k i .reset hk (by rw [List.getElem?_map, hk]; rfl)]
        simp [hi, Sys.run]
      · rw [cmdFor_not_mem _ _ _ hi]
        simp [hi]
    · intro i
      rw [hterm]
      exact hfold is st.terminal i
  · rw [List.getElem?_map] at c2
    cases ha : is[k]? with
    | none => rw [ha] at c2; cases c2
    | some a =>
      rw [ha] at c2
      simp at c2
      subst c2
      obtain ⟨r, hr'⟩ := hx (st.envs i)
      simp [Sys.run, hr', Except.map] at c3

example : ((Sub.new 2 (fun i => 10 * i + 7) : Sub Nat Nat Nat String).reset counter (some [1, 0]) [.worker 0, .worker 1, .get, .get]).2 =
    ((Sub.new 2 (fun i => 10 * i + 7) : Sub Nat Nat Nat String).reset counter (some [1, 0]) [.worker 1, .worker 0, .get, .get]).2 := by rfl

end Machin.EnvWrap
