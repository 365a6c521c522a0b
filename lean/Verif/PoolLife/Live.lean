import Verif.PoolLife.Lemmas

/-! # Lemmas: a closed or terminated pool can always be brought to its end -/

namespace Machin.PoolLife

theorem run_append (processes : Nat) (maxtasks : Option Nat) (s : St) (a b : List Step) :
    run processes maxtasks s (a ++ b) = run processes maxtasks (run processes maxtasks s a) b := List.foldl_append

/-- How many tasks are in the input queue. -/
def tasks (q : List Item) : Nat := q.countP (· ≠ .stop)

/-- What is left to do. -/
def work (s : St) : Nat := 3 * tasks s.inq + 2 * total isBusy s.pool + s.outq.length

theorem total_runs_pos {t : Nat} {l : List Worker} (h : 0 < total (runs t) l) : 0 < total isBusy l := by
  induction l with
  | nil => simp [total] at h
  | cons x xs ih =>
    simp only [total] at h ⊢
    cases x with
    | busy t' c => simp only [isBusy]; omega
    | idle c => simp only [runs, isBusy] at h ⊢; have := ih (by omega); omega
    | exited => simp only [runs, isBusy] at h ⊢; have := ih (by omega); omega

theorem eq_exited_of {w : Worker} (h1 : isBusy w = 0) (h2 : ∀ c, w ≠ .idle c) : w = .exited := by
  cases w with
  | idle c => exact absurd rfl (h2 c)
  | busy t c => simp [isBusy] at h1
  | exited => rfl

theorem filter_exited {l : List Worker} (h : ∀ w ∈ l, w = .exited) : l.filter (· ≠ .exited) = [] := by
  rw [List.filter_eq_nil_iff]
  intro w hw
  simp [h w hw]

theorem refill {processes : Nat} (maxtasks : Option Nat) {s : St} (h : Inv processes s) (hnl : ¬ Left s)
    (hgo : s.goOn = true) (hex : ∀ w ∈ s.pool, w = .exited) :
    run processes maxtasks s [.repopulate, .sweep, .repopulate] =
      { s with pool := List.replicate processes (.idle 0), wh := .head } := by
  have hw : s.wh = .head ∨ s.wh = .swept := by
    cases hc : s.wh with
    | head => exact Or.inl rfl
    | swept => exact Or.inr rfl
    | sending k => exact absurd (Or.inl ⟨k, hc⟩) hnl
    | done => exact absurd (Or.inr hc) hnl
  simp only [run, List.foldl_cons, List.foldl_nil]
  rcases hw with hw | hw
  · have e1 : step processes maxtasks s .repopulate = s := by
      unfold step; dsimp only; rw [if_neg (by rw [hw]; decide)]
    have e2 : step processes maxtasks s .sweep = { s with pool := [], wh := .swept } := by
      unfold step; dsimp only; rw [if_pos ⟨hw, hgo⟩, filter_exited hex]
    rw [e1, e2]
    unfold step; dsimp only; rw [if_pos rfl]; simp
  · have hl := h.swept hw
    have e1 : step processes maxtasks s .repopulate =
        { s with pool := s.pool ++ List.replicate (processes - s.pool.length) (.idle 0), wh := .head } := by
      unfold step; dsimp only; rw [if_pos hw]
    rw [e1]
    have e2 : ∀ s' : St, s'.wh = .head → s'.goOn = true → step processes maxtasks s' .sweep =
        { s' with pool := s'.pool.filter (· ≠ .exited), wh := .swept } := by
      intro s' h1 h2
      unfold step; dsimp only; rw [if_pos ⟨h1, h2⟩]
    rw [e2 _ rfl (by simpa [St.goOn] using hgo)]
    unfold step; dsimp only; rw [if_pos rfl]
    have e3 : (s.pool ++ List.replicate (processes - s.pool.length) (Worker.idle 0)).filter (· ≠ Worker.exited) =
        List.replicate (processes - s.pool.length) (Worker.idle 0) := by
      rw [List.filter_append, filter_exited hex, List.nil_append, List.filter_replicate]
      simp
    rw [e3]
    simp only [List.length_replicate, List.replicate_append_replicate]
    congr 2
    omega

theorem get_works (processes : Nat) (maxtasks : Option Nat) {s : St} {i c t : Nat} {rest : List Item}
    (hp : s.pool[i]? = some (.idle c)) (hq : s.inq = .task t :: rest) :
    work (step processes maxtasks s (.get i)) < work s ∧ (step processes maxtasks s (.get i)).mode = s.mode := by
  unfold step
  simp only [hp, hq]
  refine ⟨?_, by simp⟩
  have h2 := total_set isBusy hp (.busy t c)
  simp only [isBusy] at h2
  have h3 : tasks (.task t :: rest) = tasks rest + 1 := by simp [tasks]
  simp only [work, hq, h3]
  omega

theorem progress {processes : Nat} (maxtasks : Option Nat) (hp : 0 < processes) {s : St} (h : Inv processes s)
    (hm : s.mode = .close) (hc : s.cache ≠ []) :
    ∃ steps, work (run processes maxtasks s steps) < work s ∧ (run processes maxtasks s steps).mode = .close := by
  have hk : s.killed = false := by
    cases hk : s.killed with
    | false => rfl
    | true => have := (h.killed hk).1; rw [hm] at this; cases this
  have hrh : s.rh = false := by
    cases hr : s.rh with
    | false => rfl
    | true => exact absurd ((h.rleft hr).2 hm) hc
  have hnl : ¬ Left s := fun hl => hc ((h.left hl).2 hm)
  have hgo : s.goOn = true := by
    unfold St.goOn
    rw [hm]
    cases hc' : s.cache with
    | nil => exact absurd hc' hc
    | cons a l => rfl
  cases ho : s.outq with
  | cons t rest =>
    refine ⟨[.deliver], ?_⟩
    simp only [run, List.foldl_cons, List.foldl_nil]
    unfold step
    simp only [hrh, hgo, ho, if_true, Bool.false_eq_true, if_false]
    split
    · simp only [work, ho, List.length_cons]; exact ⟨by omega, hm⟩
    · simp only [work, ho, List.length_cons]; exact ⟨by omega, hm⟩
  | nil =>
    by_cases hb : 0 < total isBusy s.pool
    · rcases exists_of_total_pos hb with ⟨i, w, hw, hwb⟩
      cases w with
      | idle c => simp [isBusy] at hwb
      | exited => simp [isBusy] at hwb
      | busy t c =>
        refine ⟨[.finish i], ?_⟩
        simp only [run, List.foldl_cons, List.foldl_nil]
        unfold step
        simp only [hw]
        refine ⟨?_, hm⟩
        have h2 := total_set isBusy hw (if exhausted maxtasks (c + 1) then .exited else .idle (c + 1))
        have h3 : isBusy (if exhausted maxtasks (c + 1) then .exited else .idle (c + 1)) = 0 := by split <;> rfl
        rw [h3] at h2
        simp only [isBusy] at h2
        simp only [work, List.length_append, List.length_singleton]
        omega
    · have hb0 : total isBusy s.pool = 0 := by omega
      cases hq : s.inq with
      | nil =>
        exfalso
        cases hc' : s.cache with
        | nil => exact hc hc'
        | cons t l =>
          have := h.cached hk t
          rw [hc', hq, ho, List.count_cons_self] at this
          have h1 : inTask t [] = 0 := rfl
          have h2 : 0 < total (runs t) s.pool := by
            simp only [List.count_nil] at this
            omega
          have := total_runs_pos h2
          omega
      | cons x rest =>
        cases x with
        | stop =>
          exfalso
          have := h.nostop hnl
          rw [hq] at this
          simp [stops] at this
        | task t =>
          by_cases hi : ∃ (i c : Nat), s.pool[i]? = some (.idle c)
          · rcases hi with ⟨i, c, hi⟩
            have := get_works processes maxtasks hi hq
            exact ⟨[.get i], this.1, this.2.trans hm⟩
          · have hex : ∀ w ∈ s.pool, w = .exited := by
              intro w hw
              refine eq_exited_of (total_eq_zero hb0 w hw) ?_
              intro c e
              rcases List.mem_iff_getElem?.1 hw with ⟨i, hi'⟩
              exact hi ⟨i, c, e ▸ hi'⟩
            have e := refill maxtasks h hnl hgo hex
            refine ⟨[.repopulate, .sweep, .repopulate] ++ [.get 0], ?_⟩
            rw [run_append, e]
            have hg := get_works processes maxtasks (i := 0) (c := 0) (t := t) (rest := rest)
              (s := { s with pool := List.replicate processes (.idle 0), wh := .head })
              (by simp [hp]) hq
            refine ⟨?_, hg.2.trans hm⟩
            have hwk : work { s with pool := List.replicate processes (.idle 0), wh := .head } = work s := by
              simp only [work, hb0, total_replicate_zero isBusy processes (.idle 0) rfl]
            rw [← hwk]
            exact hg.1

theorem drain {processes : Nat} (maxtasks : Option Nat) (hp : 0 < processes) (n : Nat) {s : St} (h : Inv processes s)
    (hm : s.mode = .close) (hn : work s ≤ n) :
    ∃ steps, (run processes maxtasks s steps).cache = [] ∧ (run processes maxtasks s steps).mode = .close := by
  induction n generalizing s with
  | zero =>
    by_cases hc : s.cache = []
    · exact ⟨[], hc, hm⟩
    · rcases progress maxtasks hp h hm hc with ⟨steps, h1, _⟩
      omega
  | succ n ih =>
    by_cases hc : s.cache = []
    · exact ⟨[], hc, hm⟩
    · rcases progress maxtasks hp h hm hc with ⟨steps, h1, h2⟩
      rcases ih (h.run maxtasks steps) h2 (by omega) with ⟨more, h3, h4⟩
      exact ⟨steps ++ more, by rw [run_append]; exact h3, by rw [run_append]; exact h4⟩

/-- What the remaining steps of the handlers leave as it is. -/
def Same (s s' : St) : Prop := s'.mode = s.mode ∧ s'.cache = s.cache ∧ s'.submitted = s.submitted ∧ s'.delivered = s.delivered

theorem Same.trans {a b c : St} (h : Same a b) (h' : Same b c) : Same a c :=
  ⟨h'.1.trans h.1, h'.2.1.trans h.2.1, h'.2.2.1.trans h.2.2.1, h'.2.2.2.trans h.2.2.2⟩

theorem sends (processes : Nat) (maxtasks : Option Nat) (k : Nat) {s : St} (hw : s.wh = .sending k) :
    ∃ steps, (run processes maxtasks s steps).wh = .done ∧ (run processes maxtasks s steps).rh = s.rh ∧
      Same s (run processes maxtasks s steps) := by
  induction k generalizing s with
  | zero =>
    refine ⟨[.send], ?_⟩
    simp only [run, List.foldl_cons, List.foldl_nil]
    unfold step
    simp only [hw]
    exact ⟨trivial, trivial, rfl, rfl, rfl, rfl⟩
  | succ k ih =>
    have e : step processes maxtasks s .send = { s with inq := s.inq ++ [.stop], wh := .sending k } := by
      unfold step; simp only [hw]
    rcases ih (s := { s with inq := s.inq ++ [.stop], wh := .sending k }) rfl with ⟨steps, h1, h2, h3⟩
    refine ⟨.send :: steps, ?_⟩
    have : run processes maxtasks s (.send :: steps) =
        run processes maxtasks { s with inq := s.inq ++ [.stop], wh := .sending k } steps := by
      rw [← e]; rfl
    rw [this]
    exact ⟨h1, h2, h3⟩

theorem handlers_end (processes : Nat) (maxtasks : Option Nat) {s : St} (hgo : ¬ s.goOn = true) :
    ∃ steps, (run processes maxtasks s steps).wh = .done ∧ (run processes maxtasks s steps).rh = true ∧
      Same s (run processes maxtasks s steps) := by
  -- the result handler
  have h1 : ∃ s1, run processes maxtasks s [.rleave] = s1 ∧ s1.rh = true ∧ Same s s1 ∧ s1.wh = s.wh ∧ ¬ s1.goOn = true := by
    refine ⟨_, rfl, ?_⟩
    simp only [run, List.foldl_cons, List.foldl_nil]
    unfold step
    dsimp only
    split
    · exact ⟨rfl, ⟨rfl, rfl, rfl, rfl⟩, rfl, hgo⟩
    · rename_i hc
      refine ⟨?_, ⟨rfl, rfl, rfl, rfl⟩, rfl, hgo⟩
      cases hr : s.rh with
      | true => rfl
      | false => exact absurd ⟨hr, hgo⟩ hc
  rcases h1 with ⟨s1, e1, r1, sm1, w1, g1⟩
  -- the worker handler
  have fromHead : ∀ s2 : St, s2.wh = .head → ¬ s2.goOn = true → ∃ steps, (run processes maxtasks s2 steps).wh = .done ∧
      (run processes maxtasks s2 steps).rh = s2.rh ∧ Same s2 (run processes maxtasks s2 steps) := by
    intro s2 hw hg
    have e : step processes maxtasks s2 .leave = { s2 with wh := .sending s2.pool.length } := by
      unfold step; dsimp only; rw [if_pos ⟨hw, hg⟩]
    rcases sends processes maxtasks _ (s := { s2 with wh := .sending s2.pool.length }) rfl with ⟨steps, a, b, c⟩
    refine ⟨.leave :: steps, ?_⟩
    have : run processes maxtasks s2 (.leave :: steps) =
        run processes maxtasks { s2 with wh := .sending s2.pool.length } steps := by
      rw [← e]; rfl
    rw [this]
    exact ⟨a, b, c⟩
  have rest : ∃ steps, (run processes maxtasks s1 steps).wh = .done ∧ (run processes maxtasks s1 steps).rh = s1.rh ∧
      Same s1 (run processes maxtasks s1 steps) := by
    cases hw : s1.wh with
    | head => exact fromHead s1 hw g1
    | swept =>
      have e : step processes maxtasks s1 .repopulate =
          { s1 with pool := s1.pool ++ List.replicate (processes - s1.pool.length) (.idle 0), wh := .head } := by
        unfold step; dsimp only; rw [if_pos hw]
      rcases fromHead { s1 with pool := s1.pool ++ List.replicate (processes - s1.pool.length) (.idle 0), wh := .head } rfl g1 with
        ⟨steps, a, b, c⟩
      refine ⟨.repopulate :: steps, ?_⟩
      have : run processes maxtasks s1 (.repopulate :: steps) = run processes maxtasks
          { s1 with pool := s1.pool ++ List.replicate (processes - s1.pool.length) (.idle 0), wh := .head } steps := by
        rw [← e]; rfl
      rw [this]
      exact ⟨a, b, c⟩
    | sending k => exact sends processes maxtasks k hw
    | done => exact ⟨[], hw, rfl, rfl, rfl, rfl, rfl⟩
  rcases rest with ⟨steps, a, b, c⟩
  refine ⟨[.rleave] ++ steps, ?_⟩
  rw [run_append, e1]
  exact ⟨a, b.trans r1, sm1.trans c⟩

/-- With an empty cache the workers take the stop signals and exit. -/
theorem workers_end {processes : Nat} (maxtasks : Option Nat) (n : Nat) {s : St} (h : Inv processes s) (hm : s.mode = .close)
    (hc : s.cache = []) (hw : s.wh = .done) (hr : s.rh = true) (hn : total alive s.pool ≤ n) :
    ∃ steps, Joined (run processes maxtasks s steps) ∧ (run processes maxtasks s steps).mode = .close := by
  induction n generalizing s with
  | zero =>
    refine ⟨[], ⟨by simp only [run, List.foldl_nil]; rw [hm]; decide, hw, hr, ?_⟩, hm⟩
    intro w hw'
    have := total_eq_zero (Nat.le_zero.1 hn) w hw'
    cases w with
    | exited => rfl
    | idle c => simp [alive] at this
    | busy t c => simp [alive] at this
  | succ n ih =>
    by_cases h0 : total alive s.pool = 0
    · exact ih h hm hc hw hr (by omega)
    · have hk : s.killed = false := by
        cases hk : s.killed with
        | false => rfl
        | true => have := (h.killed hk).1; rw [hm] at this; cases this
      have hcount : ∀ t, inTask t s.inq + total (runs t) s.pool + s.outq.count t = 0 := by
        intro t
        have := h.cached hk t
        rw [hc, List.count_nil] at this
        exact this.symm
      rcases exists_of_total_pos (Nat.pos_of_ne_zero h0) with ⟨i, w, hi, ha⟩
      have hst := h.done hw
      cases hq : s.inq with
      | nil =>
        rw [hq] at hst
        have : stops [] = 0 := rfl
        omega
      | cons x rest =>
        cases x with
        | task t =>
          have := hcount t
          rw [hq] at this
          have h2 : inTask t (.task t :: rest) = inTask t rest + 1 := by simp [inTask, isTask]
          omega
        | stop =>
          cases w with
          | exited => simp [alive] at ha
          | busy t c =>
            exfalso
            have h1 := hcount t
            have h2 := total_set (runs t) hi .exited
            simp only [runs, if_true] at h2
            omega
          | idle c =>
            have e : step processes maxtasks s (.get i) = { s with inq := rest, pool := s.pool.set i .exited } := by
              unfold step; simp only [hi, hq]
            have h' := h.step maxtasks (.get i)
            have h2 := total_set alive hi .exited
            simp only [alive] at h2
            rw [e] at h'
            rcases ih h' hm hc hw hr (by dsimp only; omega) with ⟨steps, a, b⟩
            refine ⟨.get i :: steps, ?_⟩
            have : run processes maxtasks s (.get i :: steps) =
                run processes maxtasks { s with inq := rest, pool := s.pool.set i .exited } steps := by
              rw [← e]; rfl
            rw [this]
            exact ⟨a, b⟩

theorem closes {processes : Nat} (maxtasks : Option Nat) (hp : 0 < processes) {s : St} (h : Inv processes s)
    (hm : s.mode = .close) :
    ∃ steps, Joined (run processes maxtasks s steps) ∧ (run processes maxtasks s steps).mode = .close := by
  rcases drain maxtasks hp (work s) h hm (Nat.le_refl _) with ⟨a, hc, hm1⟩
  have h1 := h.run maxtasks a
  have hgo : ¬ (run processes maxtasks s a).goOn = true := by
    unfold St.goOn
    rw [hm1, hc]
    decide
  rcases handlers_end processes maxtasks hgo with ⟨b, hw, hr, hs⟩
  rcases workers_end maxtasks _ (h1.run maxtasks b) (hs.1.trans hm1) (hs.2.1.trans hc) hw hr (Nat.le_refl _) with ⟨c, hj, hm2⟩
  refine ⟨a ++ b ++ c, ?_⟩
  rw [run_append, run_append]
  exact ⟨hj, hm2⟩

theorem terminates {processes : Nat} (maxtasks : Option Nat) {s : St} (hm : s.mode = .terminate) :
    ∃ steps, Joined (run processes maxtasks s steps) ∧ (run processes maxtasks s steps).killed = true := by
  have hgo : ¬ s.goOn = true := by
    unfold St.goOn
    rw [hm]
    simp
  rcases handlers_end processes maxtasks hgo with ⟨b, hw, hr, hs⟩
  refine ⟨b ++ [.kill], ?_⟩
  rw [run_append]
  have e : run processes maxtasks (run processes maxtasks s b) [.kill] =
      { run processes maxtasks s b with pool := (run processes maxtasks s b).pool.map fun _ => .exited, killed := true } := by
    change step processes maxtasks (run processes maxtasks s b) .kill = _
    generalize run processes maxtasks s b = s' at hw hr hs
    unfold step
    dsimp only
    rw [if_pos ⟨hs.1.trans hm, hw, hr⟩]
  rw [e]
  refine ⟨⟨?_, hw, hr, ?_⟩, rfl⟩
  · dsimp only; rw [hs.1, hm]; decide
  · intro w hw'
    rcases List.mem_map.1 hw' with ⟨_, _, e⟩
    exact e.symm

theorem joined_step (processes : Nat) (maxtasks : Option Nat) {s : St} (h : Joined s) (st : Step) :
    Joined (step processes maxtasks s st) ∧ (step processes maxtasks s st).submitted = s.submitted ∧
      (step processes maxtasks s st).executed = s.executed ∧ (step processes maxtasks s st).delivered = s.delivered := by
  obtain ⟨hm, hw, hr, hp⟩ := h
  cases st with
  | submit => unfold step; dsimp only; rw [if_neg hm]; exact ⟨⟨hm, hw, hr, hp⟩, rfl, rfl, rfl⟩
  | close => unfold step; dsimp only; rw [if_neg hm]; exact ⟨⟨hm, hw, hr, hp⟩, rfl, rfl, rfl⟩
  | terminate => exact ⟨⟨by simp [step], hw, hr, hp⟩, rfl, rfl, rfl⟩
  | get i =>
    unfold step; dsimp only
    split
    · rename_i hp' _; have := hp _ (List.mem_of_getElem? hp'); cases this
    · rename_i hp' _; have := hp _ (List.mem_of_getElem? hp'); cases this
    · exact ⟨⟨hm, hw, hr, hp⟩, rfl, rfl, rfl⟩
  | finish i =>
    unfold step; dsimp only
    split
    · rename_i hp'; have := hp _ (List.mem_of_getElem? hp'); cases this
    · exact ⟨⟨hm, hw, hr, hp⟩, rfl, rfl, rfl⟩
  | sweep =>
    unfold step; dsimp only
    rw [if_neg (by rw [hw]; rintro ⟨e, _⟩; cases e)]; exact ⟨⟨hm, hw, hr, hp⟩, rfl, rfl, rfl⟩
  | repopulate =>
    unfold step; dsimp only
    rw [if_neg (by rw [hw]; intro e; cases e)]; exact ⟨⟨hm, hw, hr, hp⟩, rfl, rfl, rfl⟩
  | leave =>
    unfold step; dsimp only
    rw [if_neg (by rw [hw]; rintro ⟨e, _⟩; cases e)]; exact ⟨⟨hm, hw, hr, hp⟩, rfl, rfl, rfl⟩
  | send => unfold step; simp only [hw]; exact ⟨⟨hm, hw, hr, hp⟩, trivial, trivial, trivial⟩
  | deliver => unfold step; simp only [hr, if_true]; exact ⟨⟨hm, hw, hr, hp⟩, trivial, trivial, trivial⟩
  | rleave =>
    unfold step; dsimp only
    rw [if_neg (by rw [hr]; rintro ⟨e, _⟩; cases e)]; exact ⟨⟨hm, hw, hr, hp⟩, rfl, rfl, rfl⟩
  | kill =>
    unfold step; dsimp only
    split
    · refine ⟨⟨hm, hw, hr, ?_⟩, rfl, rfl, rfl⟩
      intro w hw'
      rcases List.mem_map.1 hw' with ⟨_, _, e⟩
      exact e.symm
    · exact ⟨⟨hm, hw, hr, hp⟩, rfl, rfl, rfl⟩

theorem joined_run (processes : Nat) (maxtasks : Option Nat) (steps : List Step) {s : St} (h : Joined s) :
    Joined (run processes maxtasks s steps) ∧ (run processes maxtasks s steps).submitted = s.submitted ∧
      (run processes maxtasks s steps).executed = s.executed ∧ (run processes maxtasks s steps).delivered = s.delivered := by
  induction steps generalizing s with
  | nil => exact ⟨h, rfl, rfl, rfl⟩
  | cons st sts ih =>
    have h1 := joined_step processes maxtasks h st
    have h2 := ih h1.1
    exact ⟨h2.1, h2.2.1.trans h1.2.1, h2.2.2.1.trans h1.2.2.1, h2.2.2.2.trans h1.2.2.2⟩

theorem frozen_step (processes : Nat) (maxtasks : Option Nat) {s : St} (h : Joined s) (st : Step) :
    (step processes maxtasks s st).outq = s.outq ∧ (step processes maxtasks s st).cache = s.cache := by
  obtain ⟨hm, hw, hr, hp⟩ := h
  cases st with
  | submit => unfold step; dsimp only; rw [if_neg hm]; exact ⟨rfl, rfl⟩
  | close => unfold step; dsimp only; rw [if_neg hm]; exact ⟨rfl, rfl⟩
  | terminate => exact ⟨rfl, rfl⟩
  | get i => unfold step; dsimp only; split <;> exact ⟨rfl, rfl⟩
  | finish i =>
    unfold step; dsimp only
    split
    · rename_i hp'; have := hp _ (List.mem_of_getElem? hp'); cases this
    · exact ⟨rfl, rfl⟩
  | sweep => unfold step; dsimp only; split <;> exact ⟨rfl, rfl⟩
  | repopulate => unfold step; dsimp only; split <;> exact ⟨rfl, rfl⟩
  | leave => unfold step; dsimp only; split <;> exact ⟨rfl, rfl⟩
  | send => unfold step; dsimp only; split <;> exact ⟨rfl, rfl⟩
  | deliver => unfold step; simp only [hr, if_true]; exact ⟨trivial, trivial⟩
  | rleave => unfold step; dsimp only; split <;> exact ⟨rfl, rfl⟩
  | kill => unfold step; dsimp only; split <;> exact ⟨rfl, rfl⟩

theorem outq_le_step {processes : Nat} (maxtasks : Option Nat) {s : St} (hi : Inv processes s)
    (h : ∀ t, s.outq.count t ≤ s.cache.count t) (st : Step) (t : Nat) :
    (step processes maxtasks s st).outq.count t ≤ (step processes maxtasks s st).cache.count t := by
  cases hk : (step processes maxtasks s st).killed with
  | false => have := (hi.step maxtasks st).cached hk t; omega
  | true =>
    cases hk' : s.killed with
    | true =>
      have hj := hi.killed hk'
      have := frozen_step processes maxtasks (s := s) ⟨by rw [hj.1]; decide, hj.2.1, hj.2.2.1, hj.2.2.2⟩ st
      rw [this.1, this.2]
      exact h t
    | false =>
      cases st with
      | kill => unfold step; dsimp only; split <;> exact h t
      | _ =>
        exfalso
        unfold step at hk
        dsimp only at hk
        first
        | (rw [hk'] at hk; cases hk)
        | (repeat' split at hk) <;> (rw [hk'] at hk; cases hk)

theorem outq_le_run {processes : Nat} (maxtasks : Option Nat) (steps : List Step) {s : St} (hi : Inv processes s)
    (h : ∀ t, s.outq.count t ≤ s.cache.count t) (t : Nat) :
    (run processes maxtasks s steps).outq.count t ≤ (run processes maxtasks s steps).cache.count t := by
  induction steps generalizing s with
  | nil => exact h t
  | cons st sts ih => exact ih (hi.step maxtasks st) (outq_le_step maxtasks hi h st)

/-- Without `maxtasksperchild` the list of workers is always full and alive until the stop signals are sent. -/
def Full (processes : Nat) (s : St) : Prop := ¬ Left s → s.pool.length = processes ∧ Worker.exited ∉ s.pool

theorem Full.step {processes : Nat} {s : St} (hi : Inv processes s) (h : Full processes s) (st : Step) :
    Full processes (step processes none s st) := by
  cases st with
  | submit => unfold PoolLife.step; dsimp only; split <;> exact h
  | close => unfold PoolLife.step; dsimp only; split <;> exact h
  | terminate => exact h
  | get i =>
    unfold PoolLife.step; dsimp only
    split
    · intro hl
      have := h hl
      refine ⟨by simpa using this.1, ?_⟩
      intro hmem
      rcases List.mem_or_eq_of_mem_set hmem with hmem | e
      · exact this.2 hmem
      · cases e
    · rename_i hq
      intro hl
      have := hi.nostop hl
      rw [hq] at this
      simp [stops] at this
    · exact h
  | finish i =>
    unfold PoolLife.step; dsimp only
    split
    · intro hl
      have := h hl
      refine ⟨by simpa using this.1, ?_⟩
      intro hmem
      rcases List.mem_or_eq_of_mem_set hmem with hmem | e
      · exact this.2 hmem
      · simp [exhausted] at e
    · exact h
  | sweep =>
    unfold PoolLife.step; dsimp only
    split
    · rename_i hc
      intro _
      have hnl : ¬ Left s := by rintro (⟨k, hk⟩ | hk) <;> rw [hc.1] at hk <;> cases hk
      have := h hnl
      have e : s.pool.filter (· ≠ .exited) = s.pool := by
        rw [List.filter_eq_self]
        intro w hw
        simp only [ne_eq, decide_not, Bool.not_eq_true', decide_eq_false_iff_not]
        intro e; exact this.2 (e ▸ hw)
      dsimp only
      rw [e]
      exact this
    · exact h
  | repopulate =>
    unfold PoolLife.step; dsimp only
    split
    · rename_i hc
      intro _
      have hnl : ¬ Left s := by rintro (⟨k, hk⟩ | hk) <;> rw [hc] at hk <;> cases hk
      have := h hnl
      dsimp only
      rw [this.1]
      simpa using this
    · exact h
  | leave =>
    unfold PoolLife.step; dsimp only
    split
    · intro hl; exact absurd (Or.inl ⟨_, rfl⟩) hl
    · exact h
  | send =>
    unfold PoolLife.step; dsimp only
    split
    · intro hl; exact absurd (Or.inr rfl) hl
    · intro hl; exact absurd (Or.inl ⟨_, rfl⟩) hl
    · exact h
  | deliver =>
    unfold PoolLife.step; dsimp only
    split
    · exact h
    · split
      · split
        · exact h
        · split <;> exact h
      · exact h
  | rleave => unfold PoolLife.step; dsimp only; split <;> exact h
  | kill =>
    unfold PoolLife.step; dsimp only
    split
    · rename_i hc; intro hl; exact absurd (Or.inr hc.2.1) hl
    · exact h

theorem Full.run {processes : Nat} (steps : List Step) {s : St} (hi : Inv processes s) (h : Full processes s) :
    Full processes (run processes none s steps) := by
  induction steps generalizing s with
  | nil => exact h
  | cons st sts ih => exact ih (hi.step none st) (h.step hi st)

/-! ### Tasks of one worker -/

/-- How many tasks a worker has completed. -/
def completedOf : Worker → Nat
  | .idle c => c
  | .busy _ c => c
  | .exited => 0

theorem completed_step {processes m : Nat} (hm : 0 < m) {s : St} (h : ∀ w ∈ s.pool, completedOf w < m) (st : Step) :
    ∀ w ∈ (step processes (some m) s st).pool, completedOf w < m := by
  have hset : ∀ (i : Nat) (w : Worker), completedOf w < m → ∀ x ∈ s.pool.set i w, completedOf x < m := by
    intro i w hw x hx
    rcases List.mem_or_eq_of_mem_set hx with hx | rfl
    · exact h x hx
    · exact hw
  cases st with
  | get i =>
    unfold step
    dsimp only
    split
    · rename_i c t rest h1 h2
      have := h _ (List.mem_of_getElem? h1)
      exact hset _ (.busy t c) this
    · exact hset _ _ hm
    · exact h
  | finish i =>
    unfold step
    dsimp only
    split
    · refine hset _ _ ?_
      rename_i t c _
      by_cases h2 : m ≤ c + 1
      · simp only [exhausted, decide_eq_true_eq, h2, if_true]
        exact hm
      · simp only [exhausted, decide_eq_true_eq, h2, if_false]
        exact Nat.not_le.1 h2
    · exact h
  | sweep =>
    unfold step
    dsimp only
    split
    · intro w hw
      exact h w (List.mem_filter.1 hw).1
    · exact h
  | repopulate =>
    unfold step
    dsimp only
    split
    · intro w hw
      rcases List.mem_append.1 hw with hw | hw
      · exact h w hw
      · rw [(List.mem_replicate.1 hw).2]; exact hm
    · exact h
  | kill =>
    unfold step
    dsimp only
    split
    · intro w hw
      simp only [List.mem_map] at hw
      obtain ⟨_, _, rfl⟩ := hw
      exact hm
    · exact h
  | deliver => unfold step; dsimp only; repeat' split
               all_goals exact h
  | send => unfold step; dsimp only; split <;> exact h
  | submit => unfold step; dsimp only; split <;> exact h
  | close => unfold step; dsimp only; split <;> exact h
  | terminate => exact h
  | leave => unfold step; dsimp only; split <;> exact h
  | rleave => unfold step; dsimp only; split <;> exact h

theorem completed_run {processes m : Nat} (hm : 0 < m) (steps : List Step) {s : St} (h : ∀ w ∈ s.pool, completedOf w < m) :
    ∀ w ∈ (run processes (some m) s steps).pool, completedOf w < m := by
  induction steps generalizing s with
  | nil => exact h
  | cons st sts ih => exact ih (completed_step hm h st)

end Machin.PoolLife
