import Verif.EnvWrap.Lemmas

/-! # Lemmas on whole calls -/

namespace Machin.EnvWrap

/-- One call, started without left-overs, for any distinct environments and any order of the answers: it is still waiting, or it
returns for every position the answer of the requested environment to the requested command, leaves nothing over and has run every
requested environment exactly once, or it raises the exception of one of the requested environments. -/
theorem call_outcome {E A O X : Type} (s : Sys E A O X) (st : Sub E A O X) (hc : Clean st) (idxs : List Nat) (args : List (Cmd A))
    (hnd : idxs.Nodup) (hr : ∀ i ∈ idxs, i < st.n) (hl : args.length = idxs.length) (sched : List Ev) :
    (callMethod s st idxs args sched).2 = .waiting ∨
    (∃ vs, (callMethod s st idxs args sched).2 = .ok vs ∧ vs.length = idxs.length ∧
      (∀ (k i : Nat) c, idxs[k]? = some i → args[k]? = some c → ∃ v, vs[k]? = some v ∧ (s.run (st.envs i) c).2 = .ok v) ∧
      Clean (callMethod s st idxs args sched).1 ∧ (callMethod s st idxs args sched).1.envs = after s idxs args st.envs) ∨
    (∃ (k i : Nat) (c : Cmd A) (x : X), idxs[k]? = some i ∧ args[k]? = some c ∧ (s.run (st.envs i) c).2 = .error x ∧
      (callMethod s st idxs args sched).2 = .fail (.env x)) := by
  have hi := inv_init s idxs args st hc
  have hcm : callMethod s st idxs args sched = match collect s idxs.length sched
      { st with cmds := fun i => st.cmds i ++ (cmdFor idxs args i).toList } [] with
    | (st, .waiting) => (st, .waiting)
    | (st, .fail f) => (st, .fail f)
    | (st, .ok got) => (st, lookAll got idxs) := by
    unfold callMethod
    rw [putAll_ok idxs args st hnd hr hl]
    simp only
    generalize collect s idxs.length sched _ [] = r
    obtain ⟨a, b⟩ := r
    cases b <;> rfl
  rcases collect_inv s st.envs idxs args sched _ [] hi with ⟨got, g1, ⟨g2, g3⟩ | ⟨g2, -, -⟩⟩ | ⟨i, c, x, c1, c2, c3⟩
  · right; left
    obtain ⟨d1, d2, d3⟩ := inv_done s st.envs idxs args _ got g1 g3
    obtain ⟨vs, v1, v2, v3⟩ := lookAll_ok (X := X) got idxs (fun i hi => by
      obtain ⟨c, v, -, h, -⟩ := d3 i hi; exact ⟨v, h⟩)
    refine ⟨vs, ?_, v2, ?_, ?_, ?_⟩
    · rw [hcm]
      revert g2
      generalize collect s idxs.length sched _ [] = r
      obtain ⟨a, b⟩ := r
      rintro rfl
      exact v1
    · intro k i c hk hkc
      obtain ⟨c', v, w1, w2, w3⟩ := d3 i (List.mem_of_getElem? hk)
      rw [cmdFor_get idxs args hnd k i c hk hkc] at w1
      cases w1
      exact ⟨v, by rw [v3 k i hk, w2], w3⟩
    · rw [hcm]
      revert g2 d1
      generalize collect s idxs.length sched _ [] = r
      obtain ⟨a, b⟩ := r
      rintro rfl d1
      exact d1
    · rw [hcm]
      revert g2 d2
      generalize collect s idxs.length sched _ [] = r
      obtain ⟨a, b⟩ := r
      rintro rfl d2
      exact d2
  · left
    rw [hcm]
    revert g2
    generalize collect s idxs.length sched _ [] = r
    obtain ⟨a, b⟩ := r
    rintro rfl
    rfl
  · right; right
    have hm := cmdFor_mem _ _ _ _ c1
    obtain ⟨k, hk⟩ := List.mem_iff_getElem?.mp hm
    have hka : k < args.length := by
      rw [hl]
      exact (List.getElem?_eq_some_iff.mp hk).1
    have hkc := cmdFor_get idxs args hnd k i args[k] hk (List.getElem?_eq_getElem hka)
    rw [c1] at hkc
    cases hkc
    refine ⟨k, i, _, x, hk, List.getElem?_eq_getElem hka, c2, ?_⟩
    rw [hcm]
    revert c3
    generalize collect s idxs.length sched _ [] = r
    obtain ⟨a, b⟩ := r
    rintro rfl
    rfl

/-- A call never blocks for ever: whatever has happened so far, once every requested worker has had another round and the master
has looked often enough, the call is over. -/
theorem call_completes {E A O X : Type} (s : Sys E A O X) (st : Sub E A O X) (hc : Clean st) (idxs : List Nat) (args : List (Cmd A))
    (hnd : idxs.Nodup) (hr : ∀ i ∈ idxs, i < st.n) (hl : args.length = idxs.length) (sched : List Ev) :
    (callMethod s st idxs args (sched ++ (idxs.map .worker ++ List.replicate idxs.length .get))).2 ≠ .waiting := by
  have hi := inv_init s idxs args st hc
  have hcm : ∀ evs, (collect s idxs.length evs { st with cmds := fun i => st.cmds i ++ (cmdFor idxs args i).toList } []).2 ≠ .waiting →
      (callMethod s st idxs args evs).2 ≠ .waiting := by
    intro evs h
    unfold callMethod
    rw [putAll_ok idxs args st hnd hr hl]
    simp only
    have hci := collect_inv s st.envs idxs args evs _ [] hi
    revert h hci
    generalize collect s idxs.length evs _ [] = r
    obtain ⟨a, b⟩ := r
    cases b with
    | waiting => intro h; exact absurd rfl h
    | fail f => intro _ _; simp
    | ok got =>
      intro _ hci
      rcases hci with ⟨got', g1, ⟨g2, g3⟩ | ⟨g2, -, -⟩⟩ | ⟨i, c, x, -, -, c3⟩
      · cases g2
        obtain ⟨-, -, d3⟩ := inv_done s st.envs idxs args _ got g1 g3
        obtain ⟨vs, v1, -, -⟩ := lookAll_ok (X := X) got idxs (fun i hi => by
          obtain ⟨c, v, -, h, -⟩ := d3 i hi; exact ⟨v, h⟩)
        simp [v1]
      · cases g2
      · cases c3
  apply hcm
  rcases collect_inv s st.envs idxs args (sched ++ (idxs.map .worker ++ List.replicate idxs.length .get)) _ [] hi with
    ⟨got, -, ⟨g2, -⟩ | ⟨-, -, -⟩⟩ | ⟨i, c, x, -, -, c3⟩
  · rw [g2]; simp
  · rcases collect_inv s st.envs idxs args sched _ [] hi with ⟨got, g1, ⟨g2, g3⟩ | ⟨g2, g3, g4⟩⟩ | ⟨i, c, x, -, -, c3⟩
    · rw [collect_ok_append s _ _ _ _ _ _ g2, g2]; simp
    · rw [g4, collect_workers s _ _ _ _ _ g3]
      obtain ⟨w1, w2⟩ := inv_workers s st.envs idxs args idxs _ got g1
      exact collect_gets s st.envs idxs args _ _ got w1
        (inv_count s st.envs idxs args _ got w1 hnd hl (fun i hi => w2 i (Or.inr hi))) (by omega)
    · rw [collect_fail_append s _ _ _ _ _ _ c3, c3]; simp
  · rw [c3]; simp

theorem n_callMethod {E A O X : Type} (s : Sys E A O X) (st : Sub E A O X) (idxs : List Nat) (args : List (Cmd A)) (sched : List Ev) :
    (callMethod s st idxs args sched).1.n = st.n := by
  have hput : ∀ (is : List Nat) (as : List (Cmd A)) (st : Sub E A O X), (putAll is as st).1.n = st.n := by
    intro is
    induction is with
    | nil => intro as st; rfl
    | cons i is ih =>
      intro as st
      unfold putAll
      split
      · rfl
      · cases as with
        | nil => rfl
        | cons a as => simp only [ih]
  have hw : ∀ (st : Sub E A O X) i, (workerStep s st i).n = st.n := by
    intro st i
    unfold workerStep
    split <;> rfl
  have hcol : ∀ (want : Nat) (evs : List Ev) (st : Sub E A O X) (got : PyDict Nat (Val O)), (collect s want evs st got).1.n = st.n := by
    intro want evs
    induction evs with
    | nil => intro st got; unfold collect; split <;> rfl
    | cons ev evs ih =>
      intro st got
      cases ev with
      | worker i =>
        rw [collect]
        split
        · rfl
        · rw [ih, hw]
      | get =>
        rw [collect]
        split
        · rfl
        · split
          · exact ih _ _
          · rw [ih]
          · rfl
  unfold callMethod
  have h1 := hput idxs args st
  revert h1
  generalize putAll idxs args st = r
  obtain ⟨a, b⟩ := r
  intro h1
  cases b with
  | false => exact h1
  | true =>
    simp only
    have h2 := hcol idxs.length sched a []
    revert h2
    generalize collect s idxs.length sched a [] = r
    obtain ⟨a', b'⟩ := r
    intro h2
    cases b' <;> exact h2.trans h1

end Machin.EnvWrap
