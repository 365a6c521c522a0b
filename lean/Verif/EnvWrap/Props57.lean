import Verif.EnvWrap.LemmasCall

/-! # C57: results of parallel environments are matched to the requests -/

namespace Machin.EnvWrap

/-- An environment for the examples: the state counts the method calls; action 9 makes it raise, action 5 ends the episode. Answers
carry the state. -/
abbrev counter : Sys Nat Nat Nat String where
  reset e := (e + 1, .ok e)
  step e a := if a = 9 then (e + 1, .error "boom") else (e + 1, .ok (100 * a + e, decide (a = 5)))

/-- One call, started without left-overs, for any distinct environments and any order of the answers: it is still waiting, or it
returns for every position the answer of the requested environment to the requested command, leaves nothing over and has run every
requested environment exactly once, or it raises the exception of one of the requested environments. -/
theorem C57_call {E A O X : Type} (s : Sys E A O X) (st : Sub E A O X) (hc : Clean st) (idxs : List Nat) (args : List (Cmd A))
    (hnd : idxs.Nodup) (hr : ∀ i ∈ idxs, i < st.n) (hl : args.length = idxs.length) (sched : List Ev) :
    (callMethod s st idxs args sched).2 = .waiting ∨
    (∃ vs, (callMethod s st idxs args sched).2 = .ok vs ∧ vs.length = idxs.length ∧
      (∀ (k i : Nat) c, idxs[k]? = some i → args[k]? = some c → ∃ v, vs[k]? = some v ∧ (s.run (st.envs i) c).2 = .ok v) ∧
      Clean (callMethod s st idxs args sched).1 ∧ (callMethod s st idxs args sched).1.envs = after s idxs args st.envs) ∨
    (∃ (k i : Nat) (c : Cmd A) (x : X), idxs[k]? = some i ∧ args[k]? = some c ∧ (s.run (st.envs i) c).2 = .error x ∧
      (callMethod s st idxs args sched).2 = .fail (.env x)) :=
  call_outcome s st hc idxs args hnd hr hl sched

/-- Environments 2 and 0 of three are stepped, the second request is answered first. -/
example : Clean (Sub.new 3 (fun i => 10 * i) : Sub Nat Nat Nat String) ∧ [2, 0].Nodup ∧ (∀ i ∈ [2, 0], i < 3) ∧
    (callMethod counter (Sub.new 3 (fun i => 10 * i)) [2, 0] [.step 1, .step 2] [.worker 0, .get, .worker 2, .get]).2 =
      .ok [.stepped 120 false, .stepped 200 false] := by
  refine ⟨⟨fun _ => rfl, rfl⟩, by decide, by decide, by rfl⟩

/-- A call never blocks for ever: whatever has happened so far, once every requested worker has had another round and the master
has looked often enough, the call is over. -/
theorem C57_completes {E A O X : Type} (s : Sys E A O X) (st : Sub E A O X) (hc : Clean st) (idxs : List Nat) (args : List (Cmd A))
    (hnd : idxs.Nodup) (hr : ∀ i ∈ idxs, i < st.n) (hl : args.length = idxs.length) (sched : List Ev) :
    (callMethod s st idxs args (sched ++ (idxs.map .worker ++ List.replicate idxs.length .get))).2 ≠ .waiting :=
  call_completes s st hc idxs args hnd hr hl sched

/-- A call as seen by the user. -/
structure Call (A : Type) where
  idxs : List Nat
  args : List (Cmd A)
  sched : List Ev

/-- A well-formed call for `n` environments. -/
def Call.Valid {A : Type} (n : Nat) (c : Call A) : Prop :=
  c.idxs.Nodup ∧ (∀ i ∈ c.idxs, i < n) ∧ c.args.length = c.idxs.length

/-- C57, full statement: after any history of well-formed calls, each of which has ended, a further call that returns has at each
position an answer that the requested command can have (in some state of the environment). -/
def C57_full : Prop :=
  ∀ (E A O X : Type) (s : Sys E A O X) (n : Nat) (envs : Nat → E) (calls : List (Call A)) (c : Call A),
    (∀ d ∈ calls, d.Valid n) → c.Valid n →
    (∀ k, ∀ d, calls[k]? = some d →
      (callMethod s ((calls.take k).foldl (fun st d => (callMethod s st d.idxs d.args d.sched).1) (Sub.new n envs)) d.idxs d.args d.sched).2 ≠
        .waiting) →
    ∀ vs, (callMethod s (calls.foldl (fun st d => (callMethod s st d.idxs d.args d.sched).1) (Sub.new n envs)) c.idxs c.args c.sched).2 =
        .ok vs →
      ∀ (k i : Nat) cmd, c.idxs[k]? = some i → c.args[k]? = some cmd → ∃ v e, vs[k]? = some v ∧ (s.run e cmd).2 = .ok v

/-- Histories of calls none of which raises: every call returns its own results. Missing: histories with a failing call, where it
is false (`C57_violated`). -/
theorem C57_partial {E A O X : Type} (s : Sys E A O X) (n : Nat) (envs : Nat → E) (calls : List (Call A)) (c : Call A)
    (hv : ∀ d ∈ calls, d.Valid n) (hcv : c.Valid n)
    (hok : ∀ k, ∀ d, calls[k]? = some d → ∃ vs,
      (callMethod s ((calls.take k).foldl (fun st d => (callMethod s st d.idxs d.args d.sched).1) (Sub.new n envs)) d.idxs d.args d.sched).2 =
        .ok vs)
    (vs : List (Val O))
    (hret : (callMethod s (calls.foldl (fun st d => (callMethod s st d.idxs d.args d.sched).1) (Sub.new n envs)) c.idxs c.args c.sched).2 =
      .ok vs) :
    ∃ now : Nat → E, now = calls.foldl (fun e d => after s d.idxs d.args e) envs ∧
      ∀ (k i : Nat) cmd, c.idxs[k]? = some i → c.args[k]? = some cmd → ∃ v, vs[k]? = some v ∧ (s.run (now i) cmd).2 = .ok v := by
  have key : ∀ k, k ≤ calls.length →
      Clean ((calls.take k).foldl (fun st d => (callMethod s st d.idxs d.args d.sched).1) (Sub.new n envs : Sub E A O X)) ∧
      ((calls.take k).foldl (fun st d => (callMethod s st d.idxs d.args d.sched).1) (Sub.new n envs : Sub E A O X)).n = n ∧
      ((calls.take k).foldl (fun st d => (callMethod s st d.idxs d.args d.sched).1) (Sub.new n envs : Sub E A O X)).envs =
        (calls.take k).foldl (fun e d => after s d.idxs d.args e) envs := by
    intro k
    induction k with
    | zero => intro _; exact ⟨⟨fun _ => rfl, rfl⟩, rfl, rfl⟩
    | succ k ih =>
      intro hk
      obtain ⟨i1, i2, i3⟩ := ih (by omega)
      have hget : calls[k]? = some calls[k] := List.getElem?_eq_getElem (by omega)
      obtain ⟨v1, v2, v3⟩ := hv calls[k] (List.getElem_mem _)
      obtain ⟨ws, hws⟩ := hok k _ hget
      rw [List.take_add_one, hget]
      simp only [Option.toList_some, List.foldl_append, List.foldl_cons, List.foldl_nil]
      rcases C57_call s _ i1 calls[k].idxs calls[k].args v1 (by rw [i2]; exact v2) v3 calls[k].sched with h | ⟨us, -, -, -, h4, h5⟩ | ⟨_, _, _, _, -, -, -, h⟩
      · rw [h] at hws; cases hws
      · refine ⟨h4, by rw [n_callMethod, i2], ?_⟩
        rw [h5, i3]
      · rw [h] at hws; cases hws
  obtain ⟨k1, k2, k3⟩ := key calls.length (Nat.le_refl _)
  rw [List.take_length] at k1 k2 k3
  refine ⟨_, rfl, ?_⟩
  obtain ⟨v1, v2, v3⟩ := hcv
  rcases C57_call s _ k1 c.idxs c.args v1 (by rw [k2]; exact v2) v3 c.sched with h | ⟨us, h1, -, h3, -, -⟩ | ⟨_, _, _, _, -, -, -, h⟩
  · rw [h] at hret; cases hret
  · rw [h1] at hret
    cases hret
    rw [k3] at h3
    exact h3
  · rw [h] at hret; cases hret

/-- Two calls: after a step of both environments, environment 1 is reset and answers with its own second state. -/
example : (callMethod counter (callMethod counter (Sub.new 2 (fun i => 10 * i)) [0, 1] [.step 1, .step 2]
      [.worker 1, .worker 0, .get, .get]).1 [1] [.reset] [.worker 1, .get]).2 = .ok [.obs 11] := by rfl

/-- Calls of a single environment leave nothing over even when they raise. -/
theorem C57_single_partial {E A O X : Type} (s : Sys E A O X) (st : Sub E A O X) (hc : Clean st) (i : Nat) (hi : i < st.n) (c : Cmd A)
    (sched : List Ev) (hw : (callMethod s st [i] [c] sched).2 ≠ .waiting) :
    Clean (callMethod s st [i] [c] sched).1 ∧
      ((∃ v, (s.run (st.envs i) c).2 = .ok v ∧ (callMethod s st [i] [c] sched).2 = .ok [v]) ∨
       (∃ x, (s.run (st.envs i) c).2 = .error x ∧ (callMethod s st [i] [c] sched).2 = .fail (.env x))) := by
  have hi0 := inv_init s [i] [c] st hc
  have hcmd : ∀ j, cmdFor [i] [c] j = if i = j then some c else none := fun j => cmdFor_cons i [] c [] j
  have main : ∀ (evs : List Ev) (t : Sub E A O X) , Inv s st.envs [i] [c] t [] → (collect s 1 evs t []).2 ≠ .waiting →
      (∃ v, (s.run (st.envs i) c).2 = .ok v ∧ (collect s 1 evs t []).2 = .ok [(i, v)] ∧ Clean (collect s 1 evs t []).1) ∨
      (∃ x, (s.run (st.envs i) c).2 = .error x ∧ (collect s 1 evs t []).2 = .fail (.env x) ∧ Clean (collect s 1 evs t []).1) := by
    intro evs
    induction evs with
    | nil => intro t ht h; exact absurd (by simp [collect]) h
    | cons ev evs ih =>
      intro t ht h
      cases ev with
      | worker k =>
        have e : collect s 1 (.worker k :: evs) t [] = collect s 1 evs (workerStep s t k) [] := by rw [collect, if_neg (by simp)]
        rw [e] at h ⊢
        exact ih _ (inv_worker s st.envs [i] [c] t [] ht k) h
      | get =>
        cases hr : t.results with
        | nil =>
          have e : collect s 1 (.get :: evs) t [] = collect s 1 evs t [] := by rw [collect, if_neg (by simp), hr]
          rw [e] at h ⊢
          exact ih _ ht h
        | cons p rs =>
          obtain ⟨k, r⟩ := p
          obtain ⟨c', c1, c2⟩ := ht.res k r (by rw [hr]; simp)
          have hk : k = i := by simpa using cmdFor_mem _ _ _ _ c1
          subst hk
          rw [hcmd, if_pos rfl] at c1
          cases c1
          have hrs : rs = [] := by
            cases hrs : rs with
            | nil => rfl
            | cons q qs =>
              obtain ⟨c'', d1, -⟩ := ht.res q.1 q.2 (by rw [hr, hrs]; simp)
              have hq : q.1 = k := by simpa using cmdFor_mem _ _ _ _ d1
              have := ht.nd
              rw [hr, hrs] at this
              simp [hq] at this
          subst hrs
          have hclean : Clean ({ t with results := [] } : Sub E A O X) := by
            refine ⟨fun j => ?_, rfl⟩
            simp only
            by_cases hj : k = j
            · subst hj
              rcases ht.on k c (by rw [hcmd, if_pos rfl]) with ⟨-, -, a, -⟩ | ⟨a, -⟩
              · exact absurd (by rw [hr]; simp) a
              · exact a
            · exact (ht.off j (by rw [hcmd, if_neg hj])).1
          cases r with
          | ok v =>
            left
            have e : collect s 1 (.get :: evs) t [] = ({ t with results := [] }, .ok [(k, v)]) := by
              rw [collect, if_neg (by simp), hr]
              cases evs with
              | nil => simp [collect, PyDict.set, PyDict.mem]
              | cons ev evs => cases ev <;> simp [collect, PyDict.set, PyDict.mem]
            rw [e]
            exact ⟨v, c2.symm, rfl, hclean⟩
          | error x =>
            right
            have e : collect s 1 (.get :: evs) t [] = ({ t with results := [] }, .fail (.env x)) := by
              rw [collect, if_neg (by simp), hr]
            rw [e]
            exact ⟨x, c2.symm, rfl, hclean⟩
  have hcm : callMethod s st [i] [c] sched = match collect s 1 sched
      { st with cmds := fun j => st.cmds j ++ (cmdFor [i] [c] j).toList } [] with
    | (st, .waiting) => (st, .waiting)
    | (st, .fail f) => (st, .fail f)
    | (st, .ok got) => (st, lookAll got [i]) := by
    unfold callMethod
    rw [putAll_ok [i] [c] st (by simp) (by simpa using hi) rfl]
    rfl
  have hm := main sched _ hi0
  rw [hcm] at hw ⊢
  revert hw hm
  generalize collect s 1 sched _ [] = r
  obtain ⟨a, b⟩ := r
  cases b with
  | waiting => intro h _; exact absurd rfl h
  | fail f =>
    intro _ hm
    rcases hm (by simp) with ⟨v, -, h, -⟩ | ⟨x, h1, h2, h3⟩
    · cases h
    · cases h2; exact ⟨h3, Or.inr ⟨x, h1, rfl⟩⟩
  | ok got =>
    intro _ hm
    rcases hm (by simp) with ⟨v, h1, h2, h3⟩ | ⟨x, -, h, -⟩
    · cases h2
      exact ⟨h3, Or.inl ⟨v, h1, by simp [lookAll, PyDict.get?]⟩⟩
    · cases h

example : (callMethod counter (Sub.new 2 (fun i => 10 * i)) [1] [.step 9] [.worker 1, .get]).2 = .fail (.env "boom") := by rfl

/-- A failing call of two environments: the answer of the other one stays in the queue and is given to the next call. -/
theorem C57_violated_stale :
    (callMethod counter (callMethod counter (Sub.new 2 (fun i => 10 * i)) [0, 1] [.step 9, .step 1]
      [.worker 0, .worker 1, .get]).1 [1] [.reset] [.get]).2 = .ok [.stepped 110 false] := by rfl

theorem C57_violated : ¬ C57_full := by
  intro h
  have := h Nat Nat Nat String counter 2 (fun i => 10 * i) [⟨[0, 1], [.step 9, .step 1], [.worker 0, .worker 1, .get]⟩]
    ⟨[1], [.reset], [.get]⟩ (by
      intro d hd
      simp only [List.mem_cons, List.not_mem_nil, or_false] at hd
      subst hd
      refine ⟨by decide, by decide, rfl⟩) ⟨by decide, by decide, rfl⟩ (by
      intro k d hk
      cases k with
      | zero => simp at hk; subst hk; intro hw; exact absurd hw (by
          have : (callMethod counter (Sub.new 2 (fun i => 10 * i)) [0, 1] [.step 9, .step 1] [.worker 0, .worker 1, .get]).2 =
            .fail (.env "boom") := by rfl
          simp only [List.take_zero, List.foldl_nil]
          rw [this]
          simp)
      | succ k => simp at hk) _ C57_violated_stale 0 1 .reset rfl rfl
  obtain ⟨v, e, h1, h2⟩ := this
  simp at h1
  subst h1
  simp [Sys.run, Except.map] at h2

/-- Also an environment that was never asked: after a failing call, results of a foreign environment make the next call end with
`KeyError`. -/
theorem C57_violated_key :
    (callMethod counter (callMethod counter (Sub.new 2 (fun i => 10 * i)) [0, 1] [.step 9, .step 1]
      [.worker 0, .worker 1, .get]).1 [0] [.reset] [.get]).2 = .fail .key := by rfl

end Machin.EnvWrap
