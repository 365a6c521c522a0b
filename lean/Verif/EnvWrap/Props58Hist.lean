import Verif.EnvWrap.Props58

/-! # C58, continued: both wrappers over whole histories -/

namespace Machin.EnvWrap

/-- The environments a call names. -/
def named (n : Nat) (idx : Option (List Nat)) : List Nat := idx.getD (List.range n)

/-- Histories of calls of both wrappers with the same arguments, from their construction on: every call names environments that exist, none of them twice, no call of
`step` names one whose flag is set, and the workers of the second wrapper answer in any order that lets the call return. -/
inductive Both {E A O X : Type} (s : Sys E A O X) (n : Nat) (envs : Nat → E) : Dummy E → Sub E A O X → Prop
  | init : Both s n envs (Dummy.new n envs) (Sub.new n envs)
  | reset {d : Dummy E} {st : Sub E A O X} (h : Both s n envs d st) (idx : Option (List Nat)) (hnd : (named n idx).Nodup) (hr : ∀ i ∈ named n idx, i < n)
      (sched : List Ev) (hw : (st.reset s idx sched).2 ≠ .waiting) : Both s n envs (d.reset s idx).1 (st.reset s idx sched).1
  | step {d : Dummy E} {st : Sub E A O X} (h : Both s n envs d st) (action : List A) (idx : Option (List Nat)) (hnd : (named n idx).Nodup)
      (hne : named n idx ≠ []) (hr : ∀ i ∈ named n idx, i < n) (ht : ∀ i ∈ named n idx, d.terminal i = false)
      (hl : action.length = (named n idx).length) (sched : List Ev) (hw : (st.step s action idx sched).2 ≠ .waiting) :
      Both s n envs (d.step s action idx).1 (st.step s action idx sched).1

/-- What holds along a history. -/
structure Alike {E A O X : Type} (n : Nat) (d : Dummy E) (st : Sub E A O X) : Prop where
  dn : d.n = n
  sn : st.n = n
  envs : st.envs = d.envs
  terminal : st.terminal = d.terminal
  clean : Clean st
  beyond : ∀ i, n ≤ i → d.terminal i = false

theorem dummy_step_frame {E A O X : Type} (s : Sys E A O X) (hx : ∀ e a, ∃ r, (s.step e a).2 = .ok r) (d : Dummy E) (action : List A) (idx : Option (List Nat))
    (hnd : (idx.getD (List.range d.n)).Nodup) (hl : action.length = (idx.getD (List.range d.n)).length) :
    (d.step s action idx).1.n = d.n ∧ ∀ i, i ∉ idx.getD (List.range d.n) → (d.step s action idx).1.terminal i = d.terminal i := by
  obtain ⟨rs, p1, p2, p3, -⟩ := stepEnvs_all s hx (idx.getD (List.range d.n)) action d hnd hl
  unfold Dummy.step
  simp only
  rw [if_neg (by simpa using hl)]
  split
  · exact ⟨rfl, fun _ _ => rfl⟩
  · split
    · exact ⟨rfl, fun _ _ => rfl⟩
    · generalize stepEnvs s ((idx.getD (List.range d.n)).zip action) d = r at p1 p3
      obtain ⟨d', q⟩ := r
      simp only at p1 p3
      subst p1
      subst p3
      simp only
      split
      · exact ⟨rfl, fun _ _ => rfl⟩
      · exact ⟨rfl, (orTerminal_spec d.terminal _ (rs.map (·.2)) hnd (by simp [p2])).1⟩

theorem sub_step_n {E A O X : Type} (s : Sys E A O X) (st : Sub E A O X) (action : List A) (idx : Option (List Nat)) (sched : List Ev) :
    (st.step s action idx sched).1.n = st.n := by
  have := n_callMethod s st (idx.getD (List.range st.n)) (action.map .step) sched
  unfold Sub.step
  simp only
  split
  · rfl
  · generalize callMethod s st (idx.getD (List.range st.n)) (action.map .step) sched = r at this
    obtain ⟨a, b⟩ := r
    cases b with
    | waiting => exact this
    | fail f => exact this
    | ok vs =>
      simp only
      split
      · exact this
      · exact this

theorem sub_reset_n {E A O X : Type} (s : Sys E A O X) (st : Sub E A O X) (idx : Option (List Nat)) (sched : List Ev) :
    (st.reset s idx sched).1.n = st.n := by
  unfold Sub.reset
  simp only
  split
  · rfl
  · rw [n_callMethod]

theorem both_alike {E A O X : Type} (s : Sys E A O X) (hx : ∀ e a, ∃ r, (s.step e a).2 = .ok r) (hz : ∀ e, ∃ o, (s.reset e).2 = .ok o) (n : Nat)
    (envs : Nat → E) (d : Dummy E) (st : Sub E A O X) (h : Both s n envs d st) : Alike n d st := by
  induction h with
  | init => exact ⟨rfl, rfl, rfl, rfl, ⟨fun _ => rfl, rfl⟩, fun _ _ => rfl⟩
  | @reset d st _ idx hnd hr sched hw ih =>
    have hd : named n idx = idx.getD (List.range d.n) := by rw [ih.dn]; rfl
    have hs : named n idx = idx.getD (List.range st.n) := by rw [ih.sn]; rfl
    obtain ⟨vs, -, -, -, b5, b6, b7⟩ := C58_reset_sub_partial s hz st ih.clean idx (by rw [← hs]; exact hnd)
      (by rw [← hs, ih.sn]; exact hr) sched hw
    obtain ⟨os, -, -, -, a5, a6⟩ := C58_reset_dummy_partial s hz d idx (by rw [← hd]; exact hnd) (by rw [← hd, ih.dn]; exact hr)
    have hdn : (d.reset s idx).1.n = d.n ∧ ∀ i, n ≤ i → (d.reset s idx).1.terminal i = false := by
      cases idx with
      | none =>
        obtain ⟨os, h1, -, h3, -⟩ := resetEnvs_all s hz (List.range d.n) d List.nodup_range
        unfold Dummy.reset
        generalize resetEnvs s (List.range d.n) d = r at h1 h3
        obtain ⟨d', q⟩ := r
        simp only at h1 h3
        subst h1
        subst h3
        exact ⟨rfl, fun _ _ => rfl⟩
      | some is =>
        obtain ⟨os, -, -, h3, -⟩ := resetLoop_all s hz is d hnd (by rw [ih.dn]; exact hr)
        unfold Dummy.reset
        rw [h3]
        refine ⟨rfl, fun i hi => ?_⟩
        simp only
        split
        · rfl
        · exact ih.beyond i hi
    refine ⟨by rw [hdn.1, ih.dn], by rw [sub_reset_n, ih.sn], ?_, ?_, b7, hdn.2⟩
    · funext i
      rw [b5, a5, ← hs, ← hd, ih.envs]
    · funext i
      rw [b6, ← hs, ih.terminal]
      by_cases hi : i < n
      · rw [a6 i (by rw [ih.dn]; exact hi), ← hd]
      · rw [hdn.2 i (by omega), ih.beyond i (by omega)]
        simp
  | @step d st _ action idx hnd hne hr ht hl sched hw ih =>
    have hd : named n idx = idx.getD (List.range d.n) := by rw [ih.dn]; rfl
    rw [hd] at hnd hne hr ht hl
    obtain ⟨rs, -, -, c3, c4, c5⟩ := C58_alike_partial s d st (by rw [ih.sn, ih.dn]) ih.envs ih.terminal ih.clean action idx hnd hne
      (fun i hi => ih.dn ▸ hr i hi) ht hl hx sched hw
    obtain ⟨f1, f2⟩ := dummy_step_frame s hx d action idx hnd hl
    refine ⟨by rw [f1, ih.dn], by rw [sub_step_n, ih.sn], c3, c4, c5, fun i hi => ?_⟩
    rw [f2 i (fun hc => absurd (hr i hc) (by omega)), ih.beyond i hi]

/-- C58: over whole histories of legal calls from their construction on, in which no environment raises, both wrappers have the same environments, the same flags and
list the same active environments, and the next legal step gives the same answers, whatever the order in which the workers answer. -/
theorem C58_histories_partial {E A O X : Type} (s : Sys E A O X) (hx : ∀ e a, ∃ r, (s.step e a).2 = .ok r) (hz : ∀ e, ∃ o, (s.reset e).2 = .ok o) (n : Nat)
    (envs : Nat → E) (d : Dummy E) (st : Sub E A O X) (h : Both s n envs d st) :
    st.envs = d.envs ∧ st.terminal = d.terminal ∧ st.active = d.active ∧
    ∀ (action : List A) (idx : Option (List Nat)) (sched : List Ev), (named n idx).Nodup → named n idx ≠ [] → (∀ i ∈ named n idx, i < n) →
      (∀ i ∈ named n idx, d.terminal i = false) → action.length = (named n idx).length → (st.step s action idx sched).2 ≠ .waiting →
      ∃ rs, (d.step s action idx).2 = .ok rs ∧ (st.step s action idx sched).2 = .ok rs := by
  have ha := both_alike s hx hz n envs d st h
  refine ⟨ha.envs, ha.terminal, by rw [Sub.active, Dummy.active, ha.sn, ha.dn, ha.terminal], ?_⟩
  intro action idx sched hnd hne hr ht hl hw
  have hd : named n idx = idx.getD (List.range d.n) := by rw [ha.dn]; rfl
  rw [hd] at hnd hne hr ht hl
  obtain ⟨rs, r1, r2, -⟩ := C58_alike_partial s d st (by rw [ha.sn, ha.dn]) ha.envs ha.terminal ha.clean action idx hnd hne (fun i hi => ha.dn ▸ hr i hi) ht hl hx
    sched hw
  exact ⟨rs, r1, r2⟩

/-- C58: a new wrapper of either kind lists all environments as active. -/
theorem C58_new_partial {E A O X : Type} (n : Nat) (envs : Nat → E) :
    (Dummy.new n envs).active = List.range n ∧ (Sub.new n envs : Sub E A O X).active = List.range n := by
  refine ⟨?_, ?_⟩
  · simp [Dummy.active, Dummy.new]
  · simp [Sub.active, Sub.new]

/-- An environment that never raises. -/
def gentle : Sys Nat Nat Nat String :=
  { reset := fun _ => (0, .ok 0), step := fun e a => (e + a, .ok (e + a, decide (3 < e + a))) }

/-- A history of three calls: a step of both environments, after which the first one has terminated; a step of the second; a reset of the first. -/
example : ∃ d st, Both gentle 2 (fun _ => 0) d st ∧ d.active = [0, 1] ∧ (d.step gentle [1, 1] none).2 = .ok [(1, false), (3, false)] := by
  refine ⟨_, _, Both.reset (Both.step (Both.step Both.init [5, 1] none (by decide) (by decide) (by decide) (by decide) (by decide) [.worker 1, .worker 0, .get, .get]
    ?_) [1] (some [1]) (by decide) (by decide) (by decide) (by decide) (by decide) [.worker 1, .get] ?_) (some [0]) (by decide) (by decide) [.worker 0, .get] ?_,
    by rfl, by rfl⟩
  · intro h; cases h
  · intro h; cases h
  · intro h; cases h

end Machin.EnvWrap
