import Verif.EnvWrap.Spec
import Mathlib.Data.List.Nodup
import Mathlib.Data.List.Perm.Subperm
import Mathlib.Data.List.Perm.Basic

/-! # Helper lemmas for C57 and C58 -/

namespace Machin.EnvWrap

variable {E A O X : Type}

theorem cmdFor_cons (i : Nat) (is : List Nat) (c : Cmd A) (cs : List (Cmd A)) (k : Nat) :
    cmdFor (i :: is) (c :: cs) k = if i = k then some c else cmdFor is cs k := by
  unfold cmdFor
  rw [List.zip_cons_cons, List.find?_cons]
  by_cases h : i = k
  · simp [h]
  · have : (i == k) = false := by simpa using h
    simp [h, this]

theorem cmdFor_mem (idxs : List Nat) (args : List (Cmd A)) (i : Nat) (c : Cmd A) (h : cmdFor idxs args i = some c) : i ∈ idxs := by
  induction idxs generalizing args with
  | nil => simp [cmdFor] at h
  | cons j js ih =>
    cases args with
    | nil => simp [cmdFor] at h
    | cons a as =>
      rw [cmdFor_cons] at h
      split at h
      · rename_i e; simp [e]
      · exact List.mem_cons_of_mem _ (ih as h)

theorem cmdFor_some (idxs : List Nat) (args : List (Cmd A)) (i : Nat) (hl : args.length = idxs.length) (h : i ∈ idxs) :
    ∃ c, cmdFor idxs args i = some c := by
  induction idxs generalizing args with
  | nil => simp at h
  | cons j js ih =>
    cases args with
    | nil => simp at hl
    | cons a as =>
      rw [cmdFor_cons]
      by_cases e : j = i
      · exact ⟨a, by simp [e]⟩
      · rw [if_neg e]
        exact ih as (by simpa using hl) (by simpa [Ne.symm e] using h)

theorem cmdFor_not_mem (idxs : List Nat) (args : List (Cmd A)) (i : Nat) (h : i ∉ idxs) : cmdFor idxs args i = none := by
  cases hc : cmdFor idxs args i with
  | none => rfl
  | some c => exact absurd (cmdFor_mem _ _ _ _ hc) h

theorem putAll_ok (idxs : List Nat) (args : List (Cmd A)) (st : Sub E A O X) (hnd : idxs.Nodup) (hr : ∀ i ∈ idxs, i < st.n)
    (hl : args.length = idxs.length) :
    putAll idxs args st = ({ st with cmds := fun i => st.cmds i ++ (cmdFor idxs args i).toList }, true) := by
  induction idxs generalizing args st with
  | nil =>
    simp [putAll, cmdFor]
  | cons j js ih =>
    cases args with
    | nil => simp at hl
    | cons a as =>
      have hj := hr j (by simp)
      have hnd' := List.nodup_cons.mp hnd
      rw [putAll, if_neg (by omega)]
      rw [ih as { st with cmds := Function.update st.cmds j (st.cmds j ++ [a]) } hnd'.2 (fun i hi => hr i (by simp [hi])) (by simpa using hl)]
      congr 2
      funext k
      rw [cmdFor_cons]
      simp only
      by_cases e : j = k
      · subst e
        simp [cmdFor_not_mem js as j hnd'.1]
      · simp [Function.update_of_ne (Ne.symm e), e]

/-- The invariant of a call that started without left-overs. -/
structure Inv (s : Sys E A O X) (e0 : Nat → E) (idxs : List Nat) (args : List (Cmd A)) (st : Sub E A O X)
    (got : PyDict Nat (Val O)) : Prop where
  nd : (st.results.map (·.1)).Nodup
  wf : got.WF
  res : ∀ i r, (i, r) ∈ st.results → ∃ c, cmdFor idxs args i = some c ∧ r = (s.run (e0 i) c).2
  val : ∀ i v, got.get? i = some v → ∃ c, cmdFor idxs args i = some c ∧ (s.run (e0 i) c).2 = .ok v
  off : ∀ i, cmdFor idxs args i = none → st.cmds i = [] ∧ st.envs i = e0 i
  on : ∀ i c, cmdFor idxs args i = some c →
    (st.cmds i = [c] ∧ st.envs i = e0 i ∧ i ∉ st.results.map (·.1) ∧ got.get? i = none) ∨
    (st.cmds i = [] ∧ st.envs i = (s.run (e0 i) c).1 ∧
      ((i ∈ st.results.map (·.1) ∧ got.get? i = none) ∨ (i ∉ st.results.map (·.1) ∧ got.get? i ≠ none)))

theorem inv_init (s : Sys E A O X) (idxs : List Nat) (args : List (Cmd A)) (st : Sub E A O X) (hc : Clean st) :
    Inv s st.envs idxs args { st with cmds := fun i => st.cmds i ++ (cmdFor idxs args i).toList } [] where
  nd := by simp [hc.2]
  wf := by unfold PyDict.WF PyDict.keys; simp
  res := by simp [hc.2]
  val := by intro i v h; exact absurd h (by simp [PyDict.get?])
  off := by intro i h; simp [hc.1 i, h]
  on := by intro i c h; left; simp [hc.1 i, hc.2, h, PyDict.get?]

theorem inv_worker (s : Sys E A O X) (e0 : Nat → E) (idxs : List Nat) (args : List (Cmd A)) (st : Sub E A O X)
    (got : PyDict Nat (Val O)) (h : Inv s e0 idxs args st got) (k : Nat) : Inv s e0 idxs args (workerStep s st k) got := by
  unfold workerStep
  cases hc : st.cmds k with
  | nil => exact h
  | cons c cs =>
    have hcmd : cmdFor idxs args k = some c ∧ cs = [] ∧ st.envs k = e0 k ∧ k ∉ st.results.map (·.1) ∧ got.get? k = none := by
      cases hq : cmdFor idxs args k with
      | none => have := (h.off k hq).1; rw [this] at hc; cases hc
      | some c' =>
        rcases h.on k c' hq with ⟨a1, a2, a3, a4⟩ | ⟨a1, -⟩
        · rw [a1] at hc
          injection hc with e1 e2
          exact ⟨by rw [e1], e2.symm, a2, a3, a4⟩
        · rw [a1] at hc; cases hc
    obtain ⟨q1, q2, q3, q4, q5⟩ := hcmd
    subst q2
    simp only
    exact {
      nd := by
        simp only [List.map_append, List.map_cons, List.map_nil]
        rw [List.nodup_append]
        refine ⟨h.nd, by simp, ?_⟩
        intro a ha b hb hab
        simp only [List.mem_singleton] at hb
        subst hb
        subst hab
        exact q4 ha
      wf := h.wf
      res := by
        intro i r hr
        simp only [List.mem_append, List.mem_singleton, Prod.mk.injEq] at hr
        rcases hr with hr | ⟨rfl, rfl⟩
        · exact h.res i r hr
        · exact ⟨c, q1, by rw [q3]⟩
      val := h.val
      off := by
        intro i hi
        have hne : i ≠ k := by rintro rfl; rw [q1] at hi; cases hi
        simp only [Function.update_of_ne hne]
        exact h.off i hi
      on := by
        intro i c' hi
        by_cases hne : i = k
        · subst hne
          rw [q1] at hi
          cases hi
          right
          refine ⟨by simp, by simp [q3], Or.inl ⟨by simp, q5⟩⟩
        · simp only [Function.update_of_ne hne, List.map_append, List.map_cons, List.map_nil, List.mem_append, List.mem_singleton, hne,
            or_false]
          exact h.on i c' hi }

theorem inv_get (s : Sys E A O X) (e0 : Nat → E) (idxs : List Nat) (args : List (Cmd A)) (st : Sub E A O X)
    (got : PyDict Nat (Val O)) (h : Inv s e0 idxs args st got) (k : Nat) (v : Val O) (rs : List (Nat × Except X (Val O)))
    (hr : st.results = (k, .ok v) :: rs) : Inv s e0 idxs args { st with results := rs } (got.set k v) ∧ got.get? k = none := by
  have hnd := h.nd
  rw [hr, List.map_cons, List.nodup_cons] at hnd
  obtain ⟨c, c1, c2⟩ := h.res k (.ok v) (by rw [hr]; simp)
  have hk : got.get? k = none := by
    rcases h.on k c c1 with ⟨-, -, a3, -⟩ | ⟨-, -, ⟨-, a⟩ | ⟨a, -⟩⟩
    · exact absurd (by rw [hr]; simp) a3
    · exact a
    · exact absurd (by rw [hr]; simp) a
  refine ⟨?_, hk⟩
  exact {
    nd := hnd.2
    wf := h.wf.set k v
    res := fun i r hi => h.res i r (by rw [hr]; exact List.mem_cons_of_mem _ hi)
    val := by
      intro i w hi
      by_cases e : i = k
      · subst e
        rw [PyDict.get?_set_self] at hi
        cases hi
        exact ⟨c, c1, c2.symm⟩
      · rw [PyDict.get?_set_ne _ e] at hi
        exact h.val i w hi
    off := h.off
    on := by
      intro i c' hi
      by_cases e : i = k
      · subst e
        rw [c1] at hi
        cases hi
        right
        rcases h.on i c c1 with ⟨-, -, a3, -⟩ | ⟨a1, a2, -⟩
        · exact absurd (by rw [hr]; simp) a3
        · exact ⟨a1, a2, Or.inr ⟨hnd.1, by rw [PyDict.get?_set_self]; simp⟩⟩
      · rw [PyDict.get?_set_ne _ e]
        have := h.on i c' hi
        rw [hr, List.map_cons] at this
        simpa [e] using this }

/-- What a call can end with. -/
theorem collect_inv (s : Sys E A O X) (e0 : Nat → E) (idxs : List Nat) (args : List (Cmd A)) (evs : List Ev) (st : Sub E A O X)
    (got : PyDict Nat (Val O)) (h : Inv s e0 idxs args st got) :
    (∃ got', Inv s e0 idxs args (collect s idxs.length evs st got).1 got' ∧
      (((collect s idxs.length evs st got).2 = .ok got' ∧ idxs.length ≤ got'.length) ∨
       ((collect s idxs.length evs st got).2 = .waiting ∧ got'.length < idxs.length ∧
        ∀ evs2, collect s idxs.length (evs ++ evs2) st got = collect s idxs.length evs2 (collect s idxs.length evs st got).1 got'))) ∨
    (∃ i c x, cmdFor idxs args i = some c ∧ (s.run (e0 i) c).2 = .error x ∧
      (collect s idxs.length evs st got).2 = .fail (.env x)) := by
  induction evs generalizing st got with
  | nil =>
    left
    refine ⟨got, ?_⟩
    by_cases hl : idxs.length ≤ got.length
    · have : collect s idxs.length [] st got = (st, .ok got) := by simp [collect, hl]
      rw [this]; exact ⟨h, Or.inl ⟨rfl, hl⟩⟩
    · have : collect s idxs.length [] st got = (st, .waiting) := by simp [collect, hl]
      rw [this]; exact ⟨h, Or.inr ⟨rfl, by omega, fun _ => rfl⟩⟩
  | cons ev evs ih =>
    by_cases hl : idxs.length ≤ got.length
    · left
      refine ⟨got, ?_⟩
      have : collect s idxs.length (ev :: evs) st got = (st, .ok got) := by cases ev <;> simp [collect, hl]
      rw [this]
      exact ⟨h, Or.inl ⟨rfl, hl⟩⟩
    · cases ev with
      | worker k =>
        have e : ∀ evs, collect s idxs.length (.worker k :: evs) st got = collect s idxs.length evs (workerStep s st k) got := by
          intro evs; rw [collect, if_neg hl]
        rw [e]
        simp only [List.cons_append, e]
        exact ih _ _ (inv_worker s e0 idxs args st got h k)
      | get =>
        cases hr : st.results with
        | nil =>
          have e : ∀ evs, collect s idxs.length (.get :: evs) st got = collect s idxs.length evs st got := by
            intro evs; rw [collect, if_neg hl, hr]
          rw [e]
          simp only [List.cons_append, e]
          exact ih _ _ h
        | cons p rs =>
          obtain ⟨k, r⟩ := p
          cases r with
          | error x =>
            right
            obtain ⟨c, c1, c2⟩ := h.res k (.error x) (by rw [hr]; simp)
            refine ⟨k, c, x, c1, c2.symm, ?_⟩
            rw [collect, if_neg hl, hr]
          | ok v =>
            have e : ∀ evs, collect s idxs.length (.get :: evs) st got =
                collect s idxs.length evs { st with results := rs } (got.set k v) := by
              intro evs; rw [collect, if_neg hl, hr]
            rw [e]
            simp only [List.cons_append, e]
            exact ih _ _ (inv_get s e0 idxs args st got h k v rs hr).1

theorem collect_ok_append (s : Sys E A O X) (want : Nat) (evs evs2 : List Ev) (st : Sub E A O X) (got got' : PyDict Nat (Val O))
    (h : (collect s want evs st got).2 = .ok got') : collect s want (evs ++ evs2) st got = collect s want evs st got := by
  induction evs generalizing st got with
  | nil =>
    have hl : want ≤ got.length := by
      by_contra hl
      simp [collect, hl] at h
    cases evs2 with
    | nil => rfl
    | cons ev evs2 => cases ev <;> simp [collect, hl]
  | cons ev evs ih =>
    cases ev with
    | worker k =>
      simp only [List.cons_append, collect] at h ⊢
      split
      · rfl
      · rename_i hl
        rw [if_neg hl] at h
        exact ih _ _ h
    | get =>
      simp only [List.cons_append, collect] at h ⊢
      split
      · rfl
      · rename_i hl
        rw [if_neg hl] at h
        cases hr : st.results with
        | nil => rw [hr] at h; simp only at h ⊢; exact ih _ _ h
        | cons p rs =>
          obtain ⟨k, r⟩ := p
          rw [hr] at h
          cases r with
          | ok v => simp only at h ⊢; exact ih _ _ h
          | error x => rfl

theorem collect_fail_append (s : Sys E A O X) (want : Nat) (evs evs2 : List Ev) (st : Sub E A O X) (got : PyDict Nat (Val O))
    (f : Fail X) (h : (collect s want evs st got).2 = .fail f) :
    collect s want (evs ++ evs2) st got = collect s want evs st got := by
  induction evs generalizing st got with
  | nil =>
    simp only [collect] at h
    split at h <;> cases h
  | cons ev evs ih =>
    cases ev with
    | worker k =>
      simp only [List.cons_append, collect] at h ⊢
      split
      · rfl
      · rename_i hl
        rw [if_neg hl] at h
        exact ih _ _ h
    | get =>
      simp only [List.cons_append, collect] at h ⊢
      split
      · rfl
      · rename_i hl
        rw [if_neg hl] at h
        cases hr : st.results with
        | nil => rw [hr] at h; simp only at h ⊢; exact ih _ _ h
        | cons p rs =>
          obtain ⟨k, r⟩ := p
          rw [hr] at h
          cases r with
          | ok v => simp only at h ⊢; exact ih _ _ h
          | error x => rfl

/-- When all results are there, nothing is left over. -/
theorem inv_done (s : Sys E A O X) (e0 : Nat → E) (idxs : List Nat) (args : List (Cmd A)) (st : Sub E A O X)
    (got : PyDict Nat (Val O)) (h : Inv s e0 idxs args st got) (hd : idxs.length ≤ got.length) :
    Clean st ∧ st.envs = after s idxs args e0 ∧
      ∀ i ∈ idxs, ∃ c v, cmdFor idxs args i = some c ∧ got.get? i = some v ∧ (s.run (e0 i) c).2 = .ok v := by
  have hsub : PyDict.keys got ⊆ idxs := by
    intro i hi
    obtain ⟨v, hv⟩ := Option.isSome_iff_exists.mp ((PyDict.get?_isSome_iff got i).mpr hi)
    obtain ⟨c, c1, -⟩ := h.val i v hv
    exact cmdFor_mem _ _ _ _ c1
  have hperm : (PyDict.keys got).Perm idxs := by
    apply (List.subperm_of_subset h.wf hsub).perm_of_length_le
    simpa [PyDict.keys] using hd
  have hall : ∀ i ∈ idxs, ∃ c v, cmdFor idxs args i = some c ∧ got.get? i = some v ∧ (s.run (e0 i) c).2 = .ok v := by
    intro i hi
    have : i ∈ PyDict.keys got := hperm.mem_iff.mpr hi
    obtain ⟨v, hv⟩ := Option.isSome_iff_exists.mp ((PyDict.get?_isSome_iff got i).mpr this)
    obtain ⟨c, c1, c2⟩ := h.val i v hv
    exact ⟨c, v, c1, hv, c2⟩
  have hstate : ∀ i c, cmdFor idxs args i = some c →
      st.cmds i = [] ∧ st.envs i = (s.run (e0 i) c).1 ∧ i ∉ st.results.map (·.1) := by
    intro i c hc
    obtain ⟨c', v, -, hv, -⟩ := hall i (cmdFor_mem _ _ _ _ hc)
    rcases h.on i c hc with ⟨-, -, -, a4⟩ | ⟨a1, a2, ⟨-, a⟩ | ⟨a, -⟩⟩
    · rw [hv] at a4; cases a4
    · rw [hv] at a; cases a
    · exact ⟨a1, a2, a⟩
  refine ⟨⟨?_, ?_⟩, ?_, hall⟩
  · intro i
    cases hc : cmdFor idxs args i with
    | none => exact (h.off i hc).1
    | some c => exact (hstate i c hc).1
  · cases hr : st.results with
    | nil => rfl
    | cons p rs =>
      obtain ⟨c, c1, -⟩ := h.res p.1 p.2 (by rw [hr]; simp)
      exact absurd (by rw [hr]; simp) (hstate p.1 c c1).2.2
  · funext i
    unfold after
    cases hc : cmdFor idxs args i with
    | none => exact (h.off i hc).2
    | some c => exact (hstate i c hc).2.1

theorem lookAll_ok (got : PyDict Nat (Val O)) (idxs : List Nat) (h : ∀ i ∈ idxs, ∃ v, got.get? i = some v) :
    ∃ vs : List (Val O), lookAll (X := X) got idxs = .ok vs ∧ vs.length = idxs.length ∧ ∀ (k i : Nat), idxs[k]? = some i → vs[k]? = got.get? i := by
  induction idxs with
  | nil => exact ⟨[], rfl, rfl, by simp⟩
  | cons j js ih =>
    obtain ⟨vs, h1, h2, h3⟩ := ih (fun i hi => h i (by simp [hi]))
    obtain ⟨v, hv⟩ := h j (by simp)
    refine ⟨v :: vs, ?_, by simp [h2], ?_⟩
    · unfold lookAll
      rw [hv]
      simp only [h1]
    · intro k i hk
      cases k with
      | zero => simp at hk; subst hk; simp [hv]
      | succ k => simp at hk; simpa using h3 k i hk

theorem cmdFor_get (idxs : List Nat) (args : List (Cmd A)) (hnd : idxs.Nodup) (k i : Nat) (c : Cmd A) (hi : idxs[k]? = some i)
    (hc : args[k]? = some c) : cmdFor idxs args i = some c := by
  induction idxs generalizing args k with
  | nil => simp at hi
  | cons j js ih =>
    cases args with
    | nil => simp at hc
    | cons a as =>
      have hnd' := List.nodup_cons.mp hnd
      rw [cmdFor_cons]
      cases k with
      | zero => simp at hi hc; simp [hi, hc]
      | succ k =>
        simp only [List.getElem?_cons_succ] at hi hc
        have : j ≠ i := by rintro rfl; exact hnd'.1 (List.mem_of_getElem? hi)
        rw [if_neg this]
        exact ih as hnd'.2 k hi hc

/-! ### Progress -/

theorem cmds_worker (s : Sys E A O X) (st : Sub E A O X) (k i : Nat) :
    (workerStep s st k).cmds i = if i = k then (st.cmds k).tail else st.cmds i := by
  unfold workerStep
  cases h : st.cmds k with
  | nil =>
    by_cases e : i = k
    · subst e; simp [h]
    · simp [e]
  | cons c cs =>
    by_cases e : i = k
    · subst e; simp
    · simp [e]

theorem collect_workers (s : Sys E A O X) (want : Nat) (is : List Nat) (evs : List Ev) (st : Sub E A O X)
    (got : PyDict Nat (Val O)) (h : got.length < want) :
    collect s want (is.map .worker ++ evs) st got = collect s want evs (is.foldl (workerStep s) st) got := by
  induction is generalizing st with
  | nil => rfl
  | cons k is ih =>
    rw [List.map_cons, List.cons_append, collect, if_neg (by omega), ih]
    rfl

theorem inv_workers (s : Sys E A O X) (e0 : Nat → E) (idxs : List Nat) (args : List (Cmd A)) (is : List Nat) (st : Sub E A O X)
    (got : PyDict Nat (Val O)) (h : Inv s e0 idxs args st got) :
    Inv s e0 idxs args (is.foldl (workerStep s) st) got ∧ ∀ i, st.cmds i = [] ∨ i ∈ is → (is.foldl (workerStep s) st).cmds i = [] := by
  induction is generalizing st with
  | nil => exact ⟨h, by simp⟩
  | cons k is ih =>
    obtain ⟨h1, h2⟩ := ih (workerStep s st k) (inv_worker s e0 idxs args st got h k)
    refine ⟨h1, ?_⟩
    intro i hi
    by_cases e : i = k
    · subst e
      apply h2
      left
      rw [cmds_worker, if_pos rfl]
      cases hq : cmdFor idxs args i with
      | none => simp [(h.off i hq).1]
      | some c => rcases h.on i c hq with ⟨a1, -⟩ | ⟨a1, -⟩ <;> simp [a1]
    · apply h2
      rw [cmds_worker, if_neg e]
      rcases hi with hi | hi
      · exact Or.inl hi
      · exact Or.inr (by simpa [e] using hi)

theorem length_set_new (d : PyDict Nat (Val O)) (k : Nat) (v : Val O) (h : d.get? k = none) :
    (d.set k v).length = d.length + 1 := by
  rw [PyDict.set_of_not_mem ((PyDict.get?_eq_none_iff _ _).mp h)]
  simp

/-- Taking results does not block as long as enough are there. -/
theorem collect_gets (s : Sys E A O X) (e0 : Nat → E) (idxs : List Nat) (args : List (Cmd A)) (m : Nat) (st : Sub E A O X)
    (got : PyDict Nat (Val O)) (h : Inv s e0 idxs args st got) (hr : idxs.length ≤ got.length + st.results.length)
    (hm : idxs.length ≤ got.length + m) : (collect s idxs.length (List.replicate m .get) st got).2 ≠ .waiting := by
  induction m generalizing st got with
  | zero =>
    simp only [List.replicate_zero]
    unfold collect
    rw [if_pos (by omega)]
    simp
  | succ m ih =>
    rw [List.replicate_succ, collect]
    split
    · simp
    · rename_i hl
      split
      · rename_i he
        rw [he] at hr
        simp at hr
        exact absurd hr hl
      · rename_i k v rs he
        obtain ⟨i1, i2⟩ := inv_get s e0 idxs args st got h k v rs he
        apply ih _ _ i1
        · rw [length_set_new _ _ _ i2]
          rw [he] at hr
          simp at hr ⊢
          omega
        · rw [length_set_new _ _ _ i2]
          omega
      · simp

/-- Without commands in the queues all results are there. -/
theorem inv_count (s : Sys E A O X) (e0 : Nat → E) (idxs : List Nat) (args : List (Cmd A)) (st : Sub E A O X)
    (got : PyDict Nat (Val O)) (h : Inv s e0 idxs args st got) (hnd : idxs.Nodup) (hl : args.length = idxs.length)
    (hc : ∀ i ∈ idxs, st.cmds i = []) : idxs.length ≤ got.length + st.results.length := by
  have hsub : idxs ⊆ PyDict.keys got ++ st.results.map (·.1) := by
    intro i hi
    obtain ⟨c, hq⟩ := cmdFor_some idxs args i hl hi
    rw [List.mem_append]
    rcases h.on i c hq with ⟨a1, -⟩ | ⟨-, -, ⟨a, -⟩ | ⟨-, a⟩⟩
    · rw [hc i hi] at a1; cases a1
    · exact Or.inr a
    · left
      apply (PyDict.get?_isSome_iff got i).mp
      exact Option.isSome_iff_ne_none.mpr a
  have := (List.subperm_of_subset hnd hsub).length_le
  simpa [PyDict.keys] using this

end Machin.EnvWrap
