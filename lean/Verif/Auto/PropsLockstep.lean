import Verif.Auto.Lockstep
import Mathlib.Algebra.BigOperators.Group.List.Basic
import Mathlib.Algebra.Order.BigOperators.Group.List
import Mathlib.Algebra.Order.Group.Nat

/-!
# C208: processes that train together end together
-/

namespace Machin.Auto

variable {P V C : Type} [DecidableEq P]

/-- The collective events of a process, in order. -/
def meets (l : List (Ev V C)) : List (Ev V C) := l.filter fun e => (grpOf e).isSome

/-- The groups it has to wait for, in order. -/
def groups (l : List (Ev V C)) : List Grp := l.filterMap grpOf

/-- Everybody has finished. -/
def AllDone (procs : List P) (s : Joint P V C) : Prop := ∀ p ∈ procs, s.rem p = []

/-- Somebody can go on. -/
def CanGo (procs : List P) (s : Joint P V C) : Prop := ∃ p ∈ procs, (jstep procs p s).isSome = true

theorem waits_cons {g : Grp} {l : List (Ev V C)} (h : waits g l = true) : ∃ e rest, l = e :: rest ∧ grpOf e = some g := by
  cases l with
  | nil => simp [waits] at h
  | cons e rest => exact ⟨e, rest, rfl, by simpa [waits] using h⟩

/-- What one step does: an event of one process, or the next collective event of all. -/
theorem jstep_cases {procs : List P} {p : P} {s s' : Joint P V C} (hp : p ∈ procs) (h : jstep procs p s = some s') :
    (∃ e rest, s.rem p = e :: rest ∧ grpOf e = none ∧ s' = { s with rem := fun q => if q = p then rest else s.rem q }) ∨
    (∃ g, (∀ q ∈ procs, ∃ e rest, s.rem q = e :: rest ∧ grpOf e = some g ∧ s'.rem q = rest) ∧ (∀ q, q ∉ procs → s'.rem q = s.rem q) ∧
      s'.met = s.met ++ [fun q => if q ∈ procs then (s.rem q).head? else none]) := by
  unfold jstep at h
  split at h
  · cases h
  · next e rest he =>
    split at h
    · next hg =>
      cases h
      exact Or.inl ⟨e, rest, he, hg, rfl⟩
    · next g hg =>
      split at h
      · next hall =>
        cases h
        refine Or.inr ⟨g, ?_, ?_, rfl⟩
        · intro q hq
          obtain ⟨e', r', h1, h2⟩ := waits_cons (List.all_eq_true.1 hall q hq)
          exact ⟨e', r', h1, h2, by simp [hq, h1]⟩
        · intro q hq
          simp [hq]
      · cases h

/-- The groups that the processes still wait for stay equal, and the events that have met are those that are gone. -/
theorem jstep_inv {procs : List P} {p : P} {s s' : Joint P V C} (hp : p ∈ procs) (h : jstep procs p s = some s') :
    (∀ q ∈ procs, meets (s.rem q) = (s'.met.drop s.met.length).filterMap (fun m => m q) ++ meets (s'.rem q)) ∧
    (∃ new, s'.met = s.met ++ new ∧ new.length ≤ 1 ∧ ∀ q ∈ procs, groups (s.rem q) = (new.filterMap fun m => (m p).bind grpOf) ++ groups (s'.rem q)) := by
  rcases jstep_cases hp h with ⟨e, rest, he, hg, rfl⟩ | ⟨g, h1, h2, h3⟩
  · constructor
    · intro q hq
      by_cases hqp : q = p
      · subst hqp
        simp [he, meets, hg]
      · simp [hqp]
    · refine ⟨[], by simp, by simp, ?_⟩
      intro q hq
      by_cases hqp : q = p
      · subst hqp
        simp [he, groups, hg]
      · simp [hqp]
  · constructor
    · intro q hq
      obtain ⟨e, rest, h4, h5, h6⟩ := h1 q hq
      rw [h3, List.drop_left, h4, h6]
      simp [hq, h4, meets, h5]
    · refine ⟨_, h3, by simp, ?_⟩
      intro q hq
      obtain ⟨e, rest, h4, h5, h6⟩ := h1 q hq
      obtain ⟨e', rest', h4', h5', _⟩ := h1 p hp
      rw [h4, h6]
      simp [hp, h4', h5', groups, h5]

theorem jrun_groups {procs : List P} (σ : List P) (hσ : ∀ p ∈ σ, p ∈ procs) (s : Joint P V C) :
    ∃ pre : List Grp, ∀ q ∈ procs, groups (s.rem q) = pre ++ groups ((jrun procs σ s).rem q) := by
  induction σ generalizing s with
  | nil => exact ⟨[], by simp [jrun]⟩
  | cons p ps ih =>
    unfold jrun
    split
    · exact ih (fun q hq => hσ q (by simp [hq])) s
    · next s' hs =>
      obtain ⟨_, new, _, _, hn⟩ := jstep_inv (hσ p (by simp)) hs
      obtain ⟨pre, hpre⟩ := ih (fun q hq => hσ q (by simp [hq])) s'
      refine ⟨(new.filterMap fun m => (m p).bind grpOf) ++ pre, ?_⟩
      intro q hq
      rw [hn q hq, hpre q hq, List.append_assoc]

/-- If all processes make their collective calls in the same order of groups, then along every schedule nobody is ever left waiting: as long as
somebody has not finished somebody can go on. -/
theorem C208_lockstep_partial (procs : List P) (s : Joint P V C) (h : ∀ p ∈ procs, ∀ q ∈ procs, groups (s.rem p) = groups (s.rem q)) (σ : List P)
    (hσ : ∀ p ∈ σ, p ∈ procs) : AllDone procs (jrun procs σ s) ∨ CanGo procs (jrun procs σ s) := by
  obtain ⟨pre, hpre⟩ := jrun_groups σ hσ s
  set t := jrun procs σ s
  have heq : ∀ p ∈ procs, ∀ q ∈ procs, groups (t.rem p) = groups (t.rem q) := by
    intro p hp q hq
    have := h p hp q hq
    rw [hpre p hp, hpre q hq] at this
    exact List.append_cancel_left this
  by_cases hdone : AllDone procs t
  · exact Or.inl hdone
  · refine Or.inr ?_
    by_cases hloc : ∃ p ∈ procs, ∃ e rest, t.rem p = e :: rest ∧ grpOf e = none
    · obtain ⟨p, hp, e, rest, he, hg⟩ := hloc
      exact ⟨p, hp, by simp [jstep, he, hg]⟩
    · unfold AllDone at hdone
      push Not at hdone hloc
      obtain ⟨p, hp, hne⟩ := hdone
      obtain ⟨e, rest, he⟩ : ∃ e rest, t.rem p = e :: rest := by
        cases hr : t.rem p with
        | nil => exact absurd hr hne
        | cons e rest => exact ⟨e, rest, rfl⟩
      have hge := hloc p hp e rest he
      obtain ⟨g, hg⟩ := Option.ne_none_iff_exists'.1 hge
      refine ⟨p, hp, ?_⟩
      have hall : procs.all (fun q => waits g (t.rem q)) = true := by
        rw [List.all_eq_true]
        intro q hq
        have h1 := heq p hp q hq
        rw [he] at h1
        have h2 : groups (e :: rest) = g :: groups rest := by simp [groups, hg]
        rw [h2] at h1
        cases hr : t.rem q with
        | nil => rw [hr] at h1; simp [groups] at h1
        | cons e' rest' =>
          have hge' := hloc q hq e' rest' hr
          obtain ⟨g', hg'⟩ := Option.ne_none_iff_exists'.1 hge'
          rw [hr] at h1
          have h3 : groups (e' :: rest') = g' :: groups rest' := by simp [groups, hg']
          rw [h3] at h1
          have : g' = g := (List.cons.inj h1).1.symm
          simp [waits, hg', this]
      simp [jstep, he, hg, hall]

/-- Conversely, if two of them differ then no schedule ends with everybody done: somebody waits for ever. -/
theorem C208_stuck_partial (procs : List P) (s : Joint P V C) (p q : P) (hp : p ∈ procs) (hq : q ∈ procs) (h : groups (s.rem p) ≠ groups (s.rem q))
    (σ : List P) (hσ : ∀ p ∈ σ, p ∈ procs) : ¬ AllDone procs (jrun procs σ s) := by
  intro hd
  obtain ⟨pre, hpre⟩ := jrun_groups σ hσ s
  apply h
  rw [hpre p hp, hpre q hq, hd p hp, hd q hq]

/-- Every schedule makes a limited number of steps, each step takes away at least one event. -/
theorem C208_bounded_partial (procs : List P) (p : P) (hp : p ∈ procs) (s s' : Joint P V C) (h : jstep procs p s = some s') :
    ((procs.map fun q => (s'.rem q).length).sum) < (procs.map fun q => (s.rem q).length).sum := by
  have hle : ∀ q ∈ procs, (s'.rem q).length ≤ (s.rem q).length ∧ (q = p → (s'.rem q).length < (s.rem q).length) := by
    intro q hq
    rcases jstep_cases hp h with ⟨e, rest, he, hg, rfl⟩ | ⟨g, h1, _, _⟩
    · by_cases hqp : q = p
      · subst hqp; simp [he]
      · simp [hqp]
    · obtain ⟨e, rest, h4, _, h6⟩ := h1 q hq
      rw [h4, h6]
      simp
  exact List.sum_lt_sum _ _ (fun q hq => (hle q hq).1) ⟨p, hp, (hle p hp).2 rfl⟩

/-- The k-th collective operation brings together the k-th collective event of every process: nothing is mixed up over steps. -/
theorem C208_paired_partial (procs : List P) (rem : P → List (Ev V C)) (σ : List P) (hσ : ∀ p ∈ σ, p ∈ procs) (q : P) (hq : q ∈ procs) :
    let t := jrun procs σ ⟨rem, []⟩
    meets (rem q) = t.met.filterMap (fun m => m q) ++ meets (t.rem q) ∧ ∀ m ∈ t.met, (m q).isSome = true := by
  have gen : ∀ (σ : List P) (s : Joint P V C), (∀ p ∈ σ, p ∈ procs) → (∀ m ∈ s.met, (m q).isSome = true) →
      (∃ new, (jrun procs σ s).met = s.met ++ new ∧ meets (s.rem q) = new.filterMap (fun m => m q) ++ meets ((jrun procs σ s).rem q)) ∧
        ∀ m ∈ (jrun procs σ s).met, (m q).isSome = true := by
    intro σ
    induction σ with
    | nil => intro s _ hm; exact ⟨⟨[], by simp [jrun], by simp [jrun]⟩, by simpa [jrun] using hm⟩
    | cons p ps ih =>
      intro s hσ hm
      unfold jrun
      split
      · exact ih s (fun r hr => hσ r (by simp [hr])) hm
      · next s' hs =>
        have hp := hσ p (by simp)
        obtain ⟨h1, new, h2, h3, _⟩ := jstep_inv hp hs
        have hm' : ∀ m ∈ s'.met, (m q).isSome = true := by
          rcases jstep_cases hp hs with ⟨e, rest, he, hg, rfl⟩ | ⟨g, h4, _, h5⟩
          · exact hm
          · intro m hmm
            rw [h5, List.mem_append] at hmm
            rcases hmm with hmm | hmm
            · exact hm m hmm
            · rw [List.mem_singleton] at hmm
              obtain ⟨e, rest, h6, _⟩ := h4 q hq
              rw [hmm]
              simp [hq, h6]
        obtain ⟨⟨new', e1, e2⟩, e3⟩ := ih s' (fun r hr => hσ r (by simp [hr])) hm'
        refine ⟨⟨new ++ new', by rw [e1, h2, List.append_assoc], ?_⟩, e3⟩
        rw [h1 q hq, h2, List.drop_left, e2, List.filterMap_append, List.append_assoc]
  obtain ⟨⟨new, h1, h2⟩, h3⟩ := gen σ ⟨rem, []⟩ hσ (by simp)
  simp only [List.nil_append] at h1
  exact ⟨by rw [h1]; exact h2, h3⟩

/-! ### The events of training steps -/

variable {F ι : Type}

/-- An algorithm that raises nothing. -/
def Calm (ops : Ops F ι) : Prop := (∀ f ep, (ops.store f ep).2 = .ok ()) ∧ ∀ f, (ops.update f).2 = .ok ()

/-- The logs of an item contain the monitored key once, as a number, and no malformed tuple (a gym dataset logs `total_reward` in every item). -/
def LogsOnce (monitors : List String) (s : Sample ι V C) : Prop :=
  (∀ q ∈ s.logs.flatten, q.2 ≠ .tuple [] ∧ ∀ x, q.2 ≠ .tuple [x]) ∧
    ∃ pre post key v, s.logs.flatten = pre ++ (key, .plain v) :: post ∧ key ∈ monitors ∧ (∀ q ∈ pre ++ post, q.1 ∉ monitors)

theorem updates_calm {ops : Ops F ι} (h : Calm ops) : ∀ n f, ∃ f', (updates ops n f : F × List (Ev V C) × Except Err Unit) = (f', List.replicate n .update, .ok ()) := by
  intro n
  induction n with
  | zero => intro f; exact ⟨f, rfl⟩
  | succ n ih =>
    intro f
    have h1 := h.2 f
    rcases hu : ops.update f with ⟨f1, r⟩
    rw [hu] at h1
    simp only at h1
    subst h1
    obtain ⟨f', h2⟩ := ih f1
    exact ⟨f', by simp [updates, hu, h2, List.replicate_succ]⟩

theorem groups_updates (n : Nat) : groups (List.replicate n (Ev.update : Ev V C)) = [] := by
  induction n with
  | zero => rfl
  | succ n ih => simpa [List.replicate_succ, groups, grpOf] using ih

theorem groups_append (a b : List (Ev V C)) : groups (a ++ b) = groups a ++ groups b := by simp [groups]

theorem logAll_out (sync : String → Bool) (l : List (String × LogVal V C)) (hw : ∀ q ∈ l, q.2 ≠ .tuple [] ∧ ∀ x, q.2 ≠ .tuple [x])
    (hs : ∀ q ∈ l, sync q.1 = false) : ∃ evs, logAll sync l = (evs, .ok ()) ∧ groups evs = [] := by
  induction l with
  | nil => exact ⟨[], rfl, rfl⟩
  | cons a l ih =>
    obtain ⟨k, v⟩ := a
    obtain ⟨evs, h1, h2⟩ := ih (fun q hq => hw q (by simp [hq])) (fun q hq => hs q (by simp [hq]))
    have hk := hs (k, v) (by simp)
    have hv := hw (k, v) (by simp)
    simp only at hk hv
    obtain ⟨ev, he, hg⟩ : ∃ ev, logOne sync k v = .ok ev ∧ grpOf ev = none := by
      unfold logOne
      split
      · exact ⟨_, rfl, by simp [hk, grpOf]⟩
      · exact absurd rfl hv.1
      · exact absurd rfl (hv.2 _)
      · exact ⟨_, rfl, rfl⟩
      · exact ⟨_, rfl, by simp [hk, grpOf]⟩
    exact ⟨ev :: evs, by simp [logAll, he, h1], by simpa [groups, hg] using h2⟩

theorem logAll_append (sync : String → Bool) (a b : List (String × LogVal V C)) (evs : List (Ev V C)) (h : logAll sync a = (evs, .ok ())) :
    logAll sync (a ++ b) = (evs ++ (logAll sync b).1, (logAll sync b).2) := by
  induction a generalizing evs with
  | nil => simp [logAll] at h; subst h; simp
  | cons x a ih =>
    obtain ⟨k, v⟩ := x
    simp only [List.cons_append, logAll] at h ⊢
    split at h
    · simp at h
    · next ev he =>
      cases hr : logAll sync a with
      | mk e1 r1 =>
        rw [hr] at h
        simp only [Prod.mk.injEq] at h
        obtain ⟨h1, h2⟩ := h
        subst h1; subst h2
        simp [ih e1 hr]

theorem logAll_once {monitors : List String} {s : Sample ι V C} (h : LogsOnce monitors s) :
    ∃ evs, logAll (fun k => decide (k ∈ monitors) && true) s.logs.flatten = (evs, .ok ()) ∧ groups evs = [.default] := by
  obtain ⟨hw, pre, post, key, v, h1, h2, h3⟩ := h
  rw [h1] at hw ⊢
  obtain ⟨e1, a1, a2⟩ := logAll_out (fun k => decide (k ∈ monitors) && true) pre (fun q hq => hw q (by simp [hq]))
    (fun q hq => by simp [h3 q (by simp [hq])])
  obtain ⟨e2, b1, b2⟩ := logAll_out (fun k => decide (k ∈ monitors) && true) post (fun q hq => hw q (by simp [hq]))
    (fun q hq => by simp [h3 q (by simp [hq])])
  refine ⟨e1 ++ .log key (.plain v) true :: e2, ?_, ?_⟩
  · rw [logAll_append _ _ _ e1 a1]
    have hk : (decide (key ∈ monitors) && true) = true := by simp [h2]
    simp only [logAll, logOne, hk, b1]
  · rw [groups_append, a2]
    have : groups (Ev.log key (.plain v) true :: e2) = Grp.default :: groups e2 := by simp [groups, grpOf]
    rw [this, b2]
    rfl

theorem trainOne_calm {ops : Ops F ι} (h : Calm ops) (monitors : List String) (doUpdate doLog : Bool) (s : Sample ι V C) (hl : doLog = true → LogsOnce monitors s)
    (f : F) : ∃ f' evs, trainOne ops (fun k => decide (k ∈ monitors) && true) doUpdate doLog s f = (f', evs, .ok ()) ∧
      groups evs = if doLog then [.default] else [] := by
  have h1 := h.1 f s.observations
  rcases hs : ops.store f s.observations with ⟨f1, r⟩
  rw [hs] at h1
  simp only at h1
  subst h1
  obtain ⟨f2, hu⟩ := updates_calm (V := V) (C := C) h s.observations.length f1
  have h2 : ∃ f3 evs, (if doUpdate then updates ops s.observations.length f1 else (f1, [], .ok ()) : F × List (Ev V C) × Except Err Unit) = (f3, evs, .ok ()) ∧
      groups evs = [] := by
    cases doUpdate
    · exact ⟨f1, [], rfl, rfl⟩
    · exact ⟨f2, _, hu, groups_updates _⟩
  obtain ⟨f3, evs, h3, h4⟩ := h2
  unfold trainOne
  simp only [hs, h3]
  cases doLog with
  | false => exact ⟨f3, _, rfl, by simpa [groups, grpOf] using h4⟩
  | true =>
    obtain ⟨e, h5, h6⟩ := logAll_once (hl rfl)
    rw [h5]
    refine ⟨f3, _, rfl, ?_⟩
    rw [groups_append, h6]
    have : groups (Ev.store :: evs : List (Ev V C)) = groups evs := List.filterMap_cons_none rfl
    rw [this, h4]
    rfl

theorem distLoop_calm {ops : Ops F ι} (h : Calm ops) (monitors : List String) (doUpdate : Bool) (l : List (Sample ι V C)) :
    ∀ (i : Nat) (f : F), 0 < i → ∃ f' evs, distLoop ops (fun k => decide (k ∈ monitors) && true) doUpdate i l f = (f', evs, .ok ()) ∧ groups evs = [] := by
  induction l with
  | nil => intro i f _; exact ⟨f, [], rfl, rfl⟩
  | cons s l ih =>
    intro i f hi
    obtain ⟨f1, e1, a1, a2⟩ := trainOne_calm (V := V) (C := C) h monitors doUpdate false s (by simp) f
    obtain ⟨f2, e2, b1, b2⟩ := ih (i + 1) f1 (by omega)
    have hb : (i == 0) = false := by simp; omega
    refine ⟨f2, e1 ++ e2, by simp only [distLoop, hb, a1, b1], ?_⟩
    rw [groups_append, a2, b2]
    rfl

theorem step_calm {ops : Ops F ι} (h : Calm ops) (monitors : List String) (epoch i : Nat) (s : Sample ι V C) (l : List (Sample ι V C)) (hl : LogsOnce monitors s)
    (f : F) : ∃ f' evs, distTrainingStep ops monitors true epoch i (s :: l) f = (f', evs, .ok ()) ∧ groups evs = [.default, .own] := by
  obtain ⟨f1, e1, a1, a2⟩ := trainOne_calm (V := V) (C := C) h monitors (decide (epoch ≠ 0 ∨ i ≠ 0)) true s (fun _ => hl) f
  obtain ⟨f2, e2, b1, b2⟩ := distLoop_calm (V := V) (C := C) h monitors (decide (epoch ≠ 0 ∨ i ≠ 0)) l 1 f1 (by omega)
  refine ⟨f2, (e1 ++ e2) ++ [.barrier], ?_, ?_⟩
  · simp only [distTrainingStep, distLoop, beq_self_eq_true, a1, Nat.zero_add, b1]
  · rw [groups_append, groups_append, a2, b2]
    rfl

/-- An epoch makes one reduction and one barrier per batch. -/
theorem C208_epoch_partial {ops : Ops F ι} (h : Calm ops) (monitors : List String) (epoch : Nat) (bs : List (List (Sample ι V C)))
    (hb : ∀ b ∈ bs, ∃ s l, b = s :: l ∧ LogsOnce monitors s) (i : Nat) (f : F) :
    ∃ f' evs, epochRun ops monitors true epoch i bs f = (f', evs, .ok ()) ∧ groups evs = (List.replicate bs.length [Grp.default, Grp.own]).flatten := by
  induction bs generalizing i f with
  | nil => exact ⟨f, [], rfl, rfl⟩
  | cons b bs ih =>
    obtain ⟨s, l, rfl, hs⟩ := hb b (by simp)
    obtain ⟨f1, e1, a1, a2⟩ := step_calm h monitors epoch i s l hs f
    obtain ⟨f2, e2, b1, b2⟩ := ih (fun b hb' => hb b (by simp [hb'])) (i + 1) f1
    refine ⟨f2, e1 ++ e2, by simp [epochRun, a1, b1], ?_⟩
    rw [groups_append, a2, b2]
    simp [List.replicate_succ]

/-- An exception ends the epoch: if the steps before it succeed and the step on batch `b` raises, then the epoch of the process raises the same exception,
nothing is done after it, and the batches behind it are not looked at. -/
theorem C208_exception_partial (ops : Ops F ι) (monitors : List String) (dist : Bool) (epoch : Nat) (before rest : List (List (Sample ι V C))) (b : List (Sample ι V C))
    (i : Nat) (f f1 f2 : F) (evs evs2 : List (Ev V C)) (e : Err) (h1 : epochRun ops monitors dist epoch i before f = (f1, evs, .ok ()))
    (h2 : distTrainingStep ops monitors dist epoch (i + before.length) b f1 = (f2, evs2, .error e)) :
    epochRun ops monitors dist epoch i (before ++ b :: rest) f = (f2, evs ++ evs2, .error e) := by
  induction before generalizing i f evs with
  | nil =>
    simp only [epochRun, Prod.mk.injEq] at h1
    obtain ⟨rfl, rfl, -⟩ := h1
    rw [List.length_nil, Nat.add_zero] at h2
    simp [epochRun, h2]
  | cons a before ih =>
    rcases ha : distTrainingStep ops monitors dist epoch i a f with ⟨f3, e3, x | x⟩
    · simp [epochRun, ha] at h1
    · simp only [epochRun, ha, Prod.mk.injEq] at h1
      have := ih (i + 1) f3 (epochRun ops monitors dist epoch (i + 1) before f3).2.1
        (by rw [← h1.1]; exact Prod.ext rfl (Prod.ext rfl h1.2.2)) (by rw [← h2, List.length_cons, Nat.add_assoc, Nat.add_comm 1])
      simp only [List.cons_append, epochRun, ha, this]
      rw [← h1.2.1, List.append_assoc]

theorem chunks_mem {α : Type} (n : Nat) (hn : 0 < n) : ∀ (fuel : Nat) (l : List α) (b : List α), b ∈ chunks n fuel l → b ≠ [] ∧ ∀ x ∈ b, x ∈ l := by
  intro fuel
  induction fuel with
  | zero => intro l b hb; simp [chunks] at hb
  | succ k ih =>
    intro l b hb
    unfold chunks at hb
    split at hb
    · simp at hb
    · next hne =>
      rcases List.mem_cons.1 hb with h | h
      · subst h
        refine ⟨?_, fun x hx => List.mem_of_mem_take hx⟩
        cases l with
        | nil => exact absurd rfl hne
        | cons a l =>
          obtain ⟨m, rfl⟩ : ∃ m, n = m + 1 := ⟨n - 1, by omega⟩
          simp
      · obtain ⟨h1, h2⟩ := ih _ _ h
        exact ⟨h1, fun x hx => List.mem_of_mem_drop (h2 x hx)⟩

/-- The number of batches is the number of items divided by the batch size, rounded up. -/
theorem chunks_length {α : Type} (n : Nat) (hn : 0 < n) : ∀ (fuel : Nat) (l : List α), l.length ≤ fuel → (chunks n fuel l).length = (l.length + n - 1) / n := by
  intro fuel
  induction fuel with
  | zero =>
    intro l hl
    have : l.length = 0 := by omega
    rw [this]
    simp only [chunks, List.length_nil, Nat.zero_add]
    exact (Nat.div_eq_of_lt (by omega)).symm
  | succ k ih =>
    intro l hl
    unfold chunks
    split
    · next h0 =>
      subst h0
      simp only [List.length_nil, Nat.zero_add]
      exact (Nat.div_eq_of_lt (by omega)).symm
    · next hne =>
      have hpos : 0 < l.length := List.length_pos_iff.2 hne
      rw [List.length_cons, ih (l.drop n) (by rw [List.length_drop]; omega), List.length_drop]
      by_cases hle : n ≤ l.length
      · have e1 : l.length + n - 1 = (l.length - n + n - 1) + n := by omega
        rw [e1, Nat.add_div_right _ hn]
      · have e1 : l.length - n + n - 1 = n - 1 := by omega
        rw [e1, Nat.div_eq_of_lt (by omega : n - 1 < n)]
        have e2 : l.length + n - 1 = (l.length - 1) + n := by omega
        rw [e2, Nat.add_div_right _ hn, Nat.div_eq_of_lt (by omega)]

/-- A process of the training: its algorithm, its batch size and its dataset. -/
structure Party (F ι V C : Type) where
  ops : Ops F ι
  frame : F
  batch : Nat
  items : List (Sample ι V C)

/-- What the process does in an epoch. -/
def Party.events (monitors : List String) (epoch : Nat) (a : Party F ι V C) : List (Ev V C) :=
  (epochRun a.ops monitors true epoch 0 (batches a.batch a.items) a.frame).2.1

/-- A process in which nothing goes wrong. -/
def Party.Sound (monitors : List String) (a : Party F ι V C) : Prop := Calm a.ops ∧ 0 < a.batch ∧ ∀ s ∈ a.items, LogsOnce monitors s

/-- C208, full statement: sound processes that train together can finish an epoch together. -/
def C208_full : Prop :=
  ∀ (F ι V C : Type) (monitors : List String) (epoch : Nat) (n : Nat) (a : Fin n → Party F ι V C), (∀ p, (a p).Sound monitors) →
    ∃ σ : List (Fin n), AllDone (List.finRange n) (jrun (List.finRange n) σ ⟨fun p => (a p).events monitors epoch, []⟩)

theorem groups_events {monitors : List String} (epoch : Nat) {a : Party F ι V C} (h : a.Sound monitors) :
    groups (a.events monitors epoch) = (List.replicate ((a.items.length + a.batch - 1) / a.batch) [Grp.default, Grp.own]).flatten := by
  obtain ⟨h1, h2, h3⟩ := h
  obtain ⟨f', evs, h4, h5⟩ := C208_epoch_partial h1 monitors epoch (batches a.batch a.items) (by
    intro b hb
    obtain ⟨h6, h7⟩ := chunks_mem a.batch h2 _ _ _ hb
    cases b with
    | nil => exact absurd rfl h6
    | cons s l => exact ⟨s, l, rfl, h3 s (h7 s (by simp))⟩) 0 a.frame
  rw [Party.events, h4]
  simp only [h5]
  rw [show (batches a.batch a.items).length = _ from chunks_length a.batch h2 _ _ (Nat.le_refl _)]

/-- Two processes with different numbers of batches never finish: in the end one of them waits in a reduction that nobody joins. With the generated
`batch_num` (10 for samplers, 1 for learners; apex.py:181, impala.py:438) this is so for all datasets of the same length of two or more items. -/
theorem C208_violated_counts (monitors : List String) (epoch n : Nat) (a : Fin n → Party F ι V C) (h : ∀ p, (a p).Sound monitors) (p q : Fin n)
    (hne : ((a p).items.length + (a p).batch - 1) / (a p).batch ≠ ((a q).items.length + (a q).batch - 1) / (a q).batch) (σ : List (Fin n)) :
    ¬ AllDone (List.finRange n) (jrun (List.finRange n) σ ⟨fun p => (a p).events monitors epoch, []⟩) := by
  refine C208_stuck_partial _ _ p q (List.mem_finRange p) (List.mem_finRange q) ?_ σ (fun r _ => List.mem_finRange r)
  simp only
  rw [groups_events epoch (h p), groups_events epoch (h q)]
  intro he
  have := congrArg List.length he
  simp at this
  exact hne (by omega)

theorem C208_violated_generated (monitors : List String) (epoch : Nat) (sampler learner : Party F ι V C) (h1 : sampler.Sound monitors) (h2 : learner.Sound monitors)
    (hb1 : sampler.batch = 10) (hb2 : learner.batch = 1) (hl : sampler.items.length = learner.items.length) (h3 : 2 ≤ learner.items.length) (σ : List (Fin 2)) :
    ¬ AllDone (List.finRange 2) (jrun (List.finRange 2) σ ⟨fun p => (if p = 0 then sampler else learner).events monitors epoch, []⟩) := by
  refine C208_violated_counts monitors epoch 2 (fun p => if p = 0 then sampler else learner) ?_ 0 1 ?_ σ
  · intro p
    by_cases hp : p = 0
    · simp only [hp, if_true]; exact h1
    · simp only [hp, if_false]; exact h2
  · simp [hb1, hb2, hl]
    omega

private def dull : Ops Unit Unit := ⟨fun f _ => (f, .ok ()), fun f => (f, .ok ())⟩
private def item : Sample Unit Unit Unit := ⟨[()], [[("total_reward", .plain ())]]⟩

private theorem item_once : LogsOnce ["total_reward"] item := by
  refine ⟨by simp [item], [], [], "total_reward", (), by simp [item], by simp, by simp⟩

theorem C208_violated : ¬ C208_full := by
  intro h
  have hs : ∀ p : Fin 2, Party.Sound ["total_reward"] (if p = 0 then ⟨dull, (), 10, [item, item]⟩ else ⟨dull, (), 1, [item, item]⟩ : Party Unit Unit Unit Unit) := by
    intro p
    split <;> exact ⟨⟨fun _ _ => rfl, fun _ => rfl⟩, by simp, by intro s hs; simp at hs; subst hs; exact item_once⟩
  obtain ⟨σ, hσ⟩ := h Unit Unit Unit Unit ["total_reward"] 0 2 (fun p => if p = 0 then ⟨dull, (), 10, [item, item]⟩ else ⟨dull, (), 1, [item, item]⟩) hs
  exact C208_violated_counts ["total_reward"] 0 2 _ hs 0 1 (by simp) σ hσ

/-- With equal numbers of batches (a gym dataset never ends; the trainer stops all processes after the same number of batches) all of them go on
along every schedule until all have finished. -/
theorem C208_together_partial (monitors : List String) (epoch n : Nat) (a : Fin n → Party F ι V C) (h : ∀ p, (a p).Sound monitors)
    (heq : ∀ p q, ((a p).items.length + (a p).batch - 1) / (a p).batch = ((a q).items.length + (a q).batch - 1) / (a q).batch) (σ : List (Fin n)) :
    let t := jrun (List.finRange n) σ ⟨fun p => (a p).events monitors epoch, []⟩
    AllDone (List.finRange n) t ∨ CanGo (List.finRange n) t := by
  refine C208_lockstep_partial _ _ ?_ σ (fun r _ => List.mem_finRange r)
  intro p _ q _
  simp only
  rw [groups_events epoch (h p), groups_events epoch (h q), heq p q]

/-- Two processes, two items each, batch size 1: they finish along the alternating schedule, and four collective operations were made. -/
example : let a : Party Unit Unit Unit Unit := ⟨dull, (), 1, [item, item]⟩
    let t := jrun (List.finRange 2) ((List.replicate 12 [0, 1]).flatten) ⟨fun _ => a.events ["total_reward"] 0, []⟩
    a.Sound ["total_reward"] ∧ t.rem 0 = [] ∧ t.rem 1 = [] ∧ t.met.length = 4 := by
  refine ⟨⟨⟨fun _ _ => rfl, fun _ => rfl⟩, by simp, by intro s hs; simp at hs; subst hs; exact item_once⟩, by decide +kernel, by decide +kernel, by decide +kernel⟩

end Machin.Auto
