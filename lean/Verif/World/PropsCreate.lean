import Verif.World.CreateLemmas

/-! # Properties of the creation of groups: C139 -/

namespace Machin.Create

/-! ### C139: `create_rpc_group` returns when all members have entered -/

/-- In every interleaving, including those in which processes still start, no member returns from `create_rpc_group` before all members have
entered it. `signal` are the signals left from other uses of the name. -/
theorem C139_safety (n man : Nat) (hn : 0 < n) (signal : Nat → Option Bool) (hs : ∀ i, signal i ≠ some false) (steps : List Step) (i : Nat)
    (h : (run n man (init signal) steps).phase i = .returned) : ∀ j < n, entered (run n man (init signal) steps) j := by
  have inv : Inv n (run n man (init signal) steps) :=
    (Inv.start n (init signal) hs (fun _ => .inl rfl) rfl (fun _ => rfl) (fun _ => rfl)).run man hn steps
  obtain ⟨k, hk⟩ := inv.ret i h
  have hp := inv.passed k hk
  intro j hj
  rcases hp.2.1 j hj with h' | h' | ⟨rfl, h'⟩
  · exact .inl h'
  · exact .inr h'
  · rcases hp.2.2.2 with h'' | h'' <;> rw [h'] at h'' <;> cases h''

example : let s := run 2 0 (init fun _ => none) [.world 0, .world 1, .call 0, .ask, .answer 0, .answer 1, .next, .next, .call 1, .ask,
    .answer 1, .answer 0, .next, .next, .unlock 1, .check 1]
    s.phase 1 = .returned ∧ s.phase 0 = .waiting ∧ entered s 0 := by decide

/-- C139, full statement: when every member has called `create_rpc_group`, then, whatever has happened, all of them can still return. -/
def C139_full : Prop :=
  ∀ (n man : Nat), 0 < n → man < n → ∀ steps : List Step, (∀ i < n, called (run n man (init fun _ => none) steps) i) →
    ∃ more, ∀ i < n, (run n man (init fun _ => none) (steps ++ more)).phase i = .returned

/-- A failed call stays failed. -/
theorem failed_step (n man : Nat) (s : State) (st : Step) (i : Nat) (h : s.phase i = .failed) : (step n man s st).phase i = .failed := by
  have key : ∀ j p, s.phase j ≠ .failed → upd s.phase j p i = .failed := by
    intro j p hj
    rw [upd_apply, if_neg]
    · exact h
    · rintro rfl; exact hj h
  cases st <;> simp only [step]
  case world j =>
    split
    · exact h
    · dsimp only; split
      · rename_i hj; exact key j _ (by rw [hj]; simp)
      · exact h
  case call j =>
    split
    · exact h
    · rename_i hc
      have hj : s.phase j = .ready := by
        apply Decidable.byContradiction; intro h'; exact hc (Or.inr h')
      split <;> exact key j _ (by rw [hj]; simp)
  case ask => split <;> exact h
  case answer j => split <;> (try split) <;> exact h
  case next =>
    split
    · rename_i h0
      split
      · exact h
      · split
        · exact h
        · exact key 0 _ (by rw [h0]; simp)
        · exact h
        · split <;> exact h
      · split
        · split
          · exact h
          · exact key 0 _ (by rw [h0]; simp)
        · exact h
    · exact h
  case unlock j => split <;> (try split) <;> exact h
  case check j =>
    split
    · rename_i hc; exact key j _ (by rw [hc.2.1]; simp)
    · exact h

/-- Two ways in which processes that create a group right after `World()` fail: member 1 calls before `World()` has returned at the process which
keeps the look-up table; or member 0 asks member 1 before `World()` has returned there, after which the other members wait for ever. -/
theorem C139_violated_start :
    (run 2 0 (init fun _ => none) [.world 1, .call 1]).phase 1 = .failed ∧
    (let s := run 3 0 (init fun _ => none) [.world 0, .world 2, .call 0, .call 2, .ask, .answer 0, .answer 1, .next, .next, .world 1, .call 1]
     s.phase 0 = .failed ∧ s.phase 1 = .waiting ∧ s.phase 2 = .waiting ∧ ∀ i < 3, called s i) := by
  constructor
  · decide
  · refine ⟨by decide, by decide, by decide, ?_⟩
    decide

/-- C139 is violated. -/
theorem C139_violated : ¬ C139_full := by
  intro h
  obtain ⟨more, hm⟩ := h 3 0 (by decide) (by decide)
    [.world 0, .world 2, .call 0, .call 2, .ask, .answer 0, .answer 1, .next, .next, .world 1, .call 1] C139_violated_start.2.2.2.2
  have hf : ∀ more : List Step, ∀ s : State, s.phase 0 = .failed → (run 3 0 s more).phase 0 = .failed := by
    intro more
    induction more with
    | nil => exact fun s h => h
    | cons st more ih => exact fun s h => ih _ (failed_step 3 0 s st 0 h)
  have := hm 0 (by decide)
  rw [run_append, hf more _ C139_violated_start.2.1] at this
  cases this

/-- Whoever waits while member 0 has failed never returns. -/
theorem C139_violated_waits (n man : Nat) (s : State) (hn : 0 < n) (hs : Inv n s) (h0 : s.phase 0 = .failed) (more : List Step) (i : Nat) :
    (run n man s more).phase i ≠ .returned := by
  have hf : (run n man s more).phase 0 = .failed := by
    clear hs
    induction more generalizing s with
    | nil => exact h0
    | cons st more ih => exact ih _ (failed_step n man s st 0 h0)
  have inv := hs.run man hn more
  intro hr
  obtain ⟨k, hk⟩ := inv.ret i hr
  rcases (inv.passed k hk).2.2.2 with h | h <;> rw [hf] at h <;> cases h

/-! What holds if all processes have started before the first one creates the group -/

/-- Every process has started and no call has failed. -/
structure Up (n : Nat) (s : State) : Prop where
  inv : Inv n s
  world : ∀ i, s.world i = true
  nofail : ∀ i, s.phase i ≠ .failed
  noerr : ∀ i, s.reply i ≠ some .error

theorem Up.step {n : Nat} (man : Nat) {s : State} (h : Up n s) (hn : 0 < n) (st : Step) : Up n (step n man s st) := by
  refine ⟨h.inv.step man st hn, fun i => world_step n man s st i (h.world i), ?_, ?_⟩
  · intro i
    have key : ∀ j p, p ≠ .failed → upd s.phase j p i ≠ .failed := by
      intro j p hp
      rw [upd_apply]
      split
      · exact hp
      · exact h.nofail i
    cases st <;> simp only [Create.step]
    case world j => rw [if_pos (h.world j)]; exact h.nofail i
    case call j =>
      split
      · exact h.nofail i
      · rw [if_pos (h.world man)]; exact key j _ (by simp)
    case ask => split <;> exact h.nofail i
    case answer j => split <;> (try split) <;> exact h.nofail i
    case next =>
      split
      · split
        · exact h.nofail i
        · split
          · exact h.nofail i
          · rename_i he; exact absurd he (h.noerr _)
          · exact h.nofail i
          · split <;> exact h.nofail i
        · split
          · split
            · exact h.nofail i
            · exact key 0 _ (by simp)
          · exact h.nofail i
      · exact h.nofail i
    case unlock j => split <;> (try split) <;> exact h.nofail i
    case check j =>
      split
      · exact key j _ (by simp)
      · exact h.nofail i
  · intro i
    cases st <;> simp only [Create.step]
    case world j => rw [if_pos (h.world j)]; exact h.noerr i
    case call j =>
      split
      · exact h.noerr i
      · split <;> exact h.noerr i
    case ask =>
      split
      · simp
      · exact h.noerr i
    case answer j =>
      split
      · split
        · dsimp only
          rw [upd_apply, if_pos (h.world j)]
          split
          · simp
          · exact h.noerr i
        · exact h.noerr i
      · exact h.noerr i
    case next =>
      split
      · split
        · exact h.noerr i
        · split <;> (try split) <;> exact h.noerr i
        · split <;> (try split) <;> exact h.noerr i
      · exact h.noerr i
    case unlock j => split <;> (try split) <;> exact h.noerr i
    case check j => split <;> exact h.noerr i

theorem Up.run {n : Nat} (man : Nat) {s : State} (h : Up n s) (hn : 0 < n) (steps : List Step) : Up n (Create.run n man s steps) := by
  induction steps generalizing s with
  | nil => exact h
  | cons st steps ih => exact ih (h.step man hn st)

theorem Up.start (n : Nat) (signal : Nat → Option Bool) (hs : ∀ i, signal i ≠ some false) : Up n (initReady signal) :=
  ⟨Inv.start n _ hs (fun _ => .inr rfl) rfl (fun _ => rfl) (fun _ => rfl), fun _ => rfl, fun _ => by simp [initReady],
    fun _ => by simp [initReady]⟩

/-- All members wait or have returned. -/
def AllIn (n : Nat) (s : State) : Prop := ∀ i < n, entered s i

theorem AllIn.step {n : Nat} (man : Nat) {s : State} (h : AllIn n s) (hu : Up n s) (hn : 0 < n) (st : Step) : AllIn n (step n man s st) := by
  intro i hi
  have h' : ent s i := (h i hi).imp id .inl
  rcases ent_step n man s st i h' with h1 | h1 | h1
  · exact .inl h1
  · exact .inr h1
  · exact absurd h1.2 ((hu.step man hn st).nofail 0)

theorem AllIn.run {n : Nat} (man : Nat) {s : State} (h : AllIn n s) (hu : Up n s) (hn : 0 < n) (steps : List Step) :
    AllIn n (Create.run n man s steps) := by
  induction steps generalizing s with
  | nil => exact h
  | cons st steps ih => exact ih (h.step man hu hn st) (hu.step man hn st)

/-- After member 0 has returned, everybody can. -/
theorem finish_checks (n man : Nat) (s : State) (hu : Up n s) (ha : AllIn n s) (hn : 0 < n) (h0 : s.phase 0 = .returned) :
    ∀ m ≤ n, ∃ more, ∀ i < m, (Create.run n man s more).phase i = .returned := by
  have hret : ∀ (st : Step) (s : State) (i : Nat), Up n s → s.phase i = .returned → (Create.step n man s st).phase i = .returned := by
    intro st s i hu hr
    have key : ∀ j p, s.phase j ≠ .returned → upd s.phase j p i = .returned := by
      intro j p hj
      rw [upd_apply, if_neg]
      · exact hr
      · rintro rfl; exact hj hr
    cases st <;> simp only [Create.step]
    case world j => rw [if_pos (hu.world j)]; exact hr
    case call j =>
      split
      · exact hr
      · rename_i hc
        have hj : s.phase j = .ready := by
          apply Decidable.byContradiction; intro h'; exact hc (Or.inr h')
        split <;> exact key j _ (by rw [hj]; simp)
    case ask => split <;> exact hr
    case answer j => split <;> (try split) <;> exact hr
    case next =>
      split
      · rename_i h0
        split
        · exact hr
        · split
          · exact hr
          · exact key 0 _ (by rw [h0]; simp)
          · exact hr
          · split <;> exact hr
        · split
          · split
            · exact hr
            · exact key 0 _ (by rw [h0]; simp)
          · exact hr
      · exact hr
    case unlock j => split <;> (try split) <;> exact hr
    case check j =>
      split
      · rename_i hc; exact key j _ (by rw [hc.2.1]; simp)
      · exact hr
  have hrets : ∀ (steps : List Step) (s : State) (i : Nat), Up n s → s.phase i = .returned → (Create.run n man s steps).phase i = .returned := by
    intro steps
    induction steps with
    | nil => exact fun s i _ h => h
    | cons st steps ih => exact fun s i hu h => ih _ i (hu.step man hn st) (hret st s i hu h)
  intro m
  induction m with
  | zero => exact fun _ => ⟨[], fun i hi => absurd hi (by omega)⟩
  | succ m ih =>
    intro hm
    obtain ⟨more, hmore⟩ := ih (by omega)
    refine ⟨more ++ [.check m], fun i hi => ?_⟩
    rw [run_append]
    have hu' := hu.run man hn more
    by_cases him : i < m
    · exact hrets _ _ _ hu' (hmore i him)
    have : i = m := by omega
    subst this
    by_cases hr : (Create.run n man s more).phase i = .returned
    · exact hrets _ _ _ hu' hr
    have h := (ha.run man hu hn more i (by omega)).resolve_right hr
    by_cases hi0 : i = 0
    · subst hi0
      have := hrets more _ 0 hu h0
      rw [h] at this
      cases this
    · have hsig : (Create.run n man s more).signal i = some true := by
        have h0' := hrets more _ 0 hu h0
        exact hu'.inv.unl i (hu'.inv.lead h0' i (by omega)) (hu'.inv.ret 0 h0')
      show (Create.step n man _ (.check i)).phase i = .returned
      simp only [Create.step]
      rw [if_pos ⟨hi0, h, hsig⟩]
      dsimp only
      rw [upd_apply, if_pos rfl]

/-- Member 0 can finish unlocking. -/
theorem finish_unlock (n man : Nat) (hn : 0 < n) : ∀ (d k : Nat) (s : State), n - k = d → Up n s → AllIn n s → s.phase 0 = .waiting →
    s.pos = .unlocking k → ∃ more, (Create.run n man s more).phase 0 = .returned := by
  intro d
  induction d with
  | zero => intro k s hd hu _ _ hp; have := (hu.inv.passed k hp).1; omega
  | succ d ih =>
    intro k s hd hu ha h0 hp
    have hk := (hu.inv.passed k hp).1
    have hs1 : (Create.step n man s (.unlock k)).unlocked k = true ∧ (Create.step n man s (.unlock k)).pos = .unlocking k ∧
        (Create.step n man s (.unlock k)).phase 0 = .waiting := by
      simp only [Create.step, hp]
      by_cases hc : k < n ∧ s.unlocked k = false
      · rw [if_pos hc]; exact ⟨by dsimp only; rw [upd_apply, if_pos rfl], rfl, h0⟩
      · rw [if_neg hc]
        refine ⟨?_, hp, h0⟩
        cases h : s.unlocked k with
        | true => rfl
        | false => exact absurd ⟨hk, h⟩ hc
    have hu1 := hu.step man hn (.unlock k)
    have ha1 := ha.step man hu hn (.unlock k)
    generalize hs' : Create.step n man s (.unlock k) = s1 at *
    by_cases hlt : k + 1 < n
    · have e : Create.step n man s1 .next = { s1 with pos := .unlocking (k + 1) } := by
        simp only [Create.step, hs1.2.1]; rw [if_pos hs1.2.2, if_pos hs1.1, if_pos hlt]
      have hu2 := hu1.step man hn .next
      have ha2 := ha1.step man hu1 hn .next
      rw [e] at hu2 ha2
      obtain ⟨more, hm⟩ := ih (k + 1) _ (by omega) hu2 ha2 hs1.2.2 rfl
      refine ⟨.unlock k :: .next :: more, ?_⟩
      show (Create.run n man (Create.step n man (Create.step n man s (.unlock k)) .next) more).phase 0 = _
      rw [hs', e]
      exact hm
    · refine ⟨[.unlock k, .next], ?_⟩
      show (Create.step n man (Create.step n man s (.unlock k)) .next).phase 0 = _
      rw [hs']
      simp only [Create.step, hs1.2.1]
      rw [if_pos hs1.2.2, if_pos hs1.1, if_neg hlt]
      dsimp only
      rw [upd_apply, if_pos rfl]

/-- Member 0 can finish a round of questions. -/
theorem finish_round (n man : Nat) (hn : 0 < n) : ∀ (d k : Nat) (s : State), n - k = d → Up n s → AllIn n s → s.phase 0 = .waiting →
    s.pos = .asked k → ∃ more, (Create.run n man s more).phase 0 = .waiting ∧
      ((Create.run n man s more).pos = .unlocking 0 ∨ ((Create.run n man s more).pos = .sleeping ∧ ¬ ∀ j, k ≤ j → s.reply j = none)) := by
  intro d
  induction d with
  | zero => intro k s hd hu _ _ hp; have := (hu.inv.asked k hp).1; omega
  | succ d ih =>
    intro k s hd hu ha h0 hp
    have hk := (hu.inv.asked k hp).1
    have hnot : ¬ unlocks s := by rintro ⟨k', hk'⟩; rw [hp] at hk'; cases hk'
    have hsig : s.signal k = some false := by
      rcases ha k hk with h | h
      · rcases hu.inv.open_ k h with h' | h'
        · exact h'
        · exact absurd h'.2 hnot
      · exact absurd (hu.inv.ret k h) hnot
    have hu1 := hu.step man hn (.answer k)
    have ha1 := ha.step man hu hn (.answer k)
    have hs1 : (Create.step n man s (.answer k)).pos = .asked k ∧ (Create.step n man s (.answer k)).phase 0 = .waiting ∧
        (∀ j, j ≠ k → (Create.step n man s (.answer k)).reply j = s.reply j) ∧
        (((Create.step n man s (.answer k)).reply k = some (.bool true)) ∨
          ((Create.step n man s (.answer k)).reply k = some (.bool false) ∧ s.reply k ≠ none)) := by
      simp only [Create.step, hp]
      by_cases hc : s.phase 0 = .waiting ∧ s.reply k = none
      · rw [if_pos hc]
        refine ⟨rfl, h0, ?_, .inl ?_⟩
        · intro j hj; dsimp only; rw [upd_apply, if_neg hj]
        · dsimp only; rw [upd_apply, if_pos rfl, if_pos (hu.world k), hsig]; rfl
      · rw [if_neg hc]
        refine ⟨hp, h0, fun _ _ => rfl, ?_⟩
        cases hr : s.reply k with
        | none => exact absurd ⟨h0, hr⟩ hc
        | some r =>
          cases r with
          | error => exact absurd hr (hu.noerr k)
          | bool b => cases b with
            | true => exact .inl rfl
            | false => exact .inr ⟨rfl, by simp⟩
    generalize hs' : Create.step n man s (.answer k) = s1 at *
    rcases hs1.2.2.2 with hr | hr
    · by_cases hlt : k + 1 < n
      · have e : Create.step n man s1 .next = { s1 with pos := .asked (k + 1) } := by
          simp only [Create.step, hs1.1, hr]; rw [if_pos hs1.2.1, if_pos hlt]
        have hu2 := hu1.step man hn .next
        have ha2 := ha1.step man hu1 hn .next
        rw [e] at hu2 ha2
        obtain ⟨more, hm⟩ := ih (k + 1) _ (by omega) hu2 ha2 hs1.2.1 rfl
        refine ⟨.answer k :: .next :: more, ?_⟩
        have e2 : Create.run n man s (.answer k :: .next :: more) = Create.run n man { s1 with pos := .asked (k + 1) } more := by
          show Create.run n man (Create.step n man (Create.step n man s (.answer k)) .next) more = _
          rw [hs', e]
        rw [e2]
        refine ⟨hm.1, hm.2.imp id fun h => ⟨h.1, fun hall => h.2 fun j hj => ?_⟩⟩
        dsimp only
        rw [hs1.2.2.1 j (by omega)]
        exact hall j (by omega)
      · refine ⟨[.answer k, .next], ?_⟩
        have e : Create.run n man s [.answer k, .next] = { s1 with pos := .unlocking 0, unlocked := fun _ => false } := by
          show Create.step n man (Create.step n man s (.answer k)) .next = _
          rw [hs']
          simp only [Create.step, hs1.1, hr]
          rw [if_pos hs1.2.1, if_neg hlt]
        rw [e]
        exact ⟨hs1.2.1, .inl rfl⟩
    · refine ⟨[.answer k, .next], ?_⟩
      have e : Create.run n man s [.answer k, .next] = { s1 with pos := .sleeping } := by
        show Create.step n man (Create.step n man s (.answer k)) .next = _
        rw [hs']
        simp only [Create.step, hs1.1, hr.1]
        rw [if_pos hs1.2.1]
      rw [e]
      exact ⟨hs1.2.1, .inr ⟨rfl, fun hall => hr.2 (hall k (Nat.le_refl k))⟩⟩

/-- C139, what holds: if all processes have started before the first one creates the group, then in every history no call of `create_rpc_group`
fails, and when every member has called it, all of them can still return, whatever has happened. -/
theorem C139_all_return_partial (n man : Nat) (hn : 0 < n) (signal : Nat → Option Bool) (hs : ∀ i, signal i ≠ some false) (steps : List Step) :
    (∀ i, (run n man (initReady signal) steps).phase i ≠ .failed) ∧
    ((∀ i < n, called (run n man (initReady signal) steps) i) →
      ∃ more, ∀ i < n, (run n man (initReady signal) (steps ++ more)).phase i = .returned) := by
  have hu := (Up.start n signal hs).run man hn steps
  refine ⟨hu.nofail, fun hc => ?_⟩
  have hst : ∀ s : State, (s.phase 0 = .failed → False) → called s 0 → s.phase 0 ≠ .waiting → s.phase 0 = .returned := by
    intro s hf hc hw
    cases h : s.phase 0 with
    | starting => exact absurd h hc.1
    | ready => exact absurd h hc.2
    | waiting => exact absurd h hw
    | returned => rfl
    | failed => exact (hf h).elim
  have ha : AllIn n (run n man (initReady signal) steps) := by
    intro i hi
    have := hc i hi
    cases h : (run n man (initReady signal) steps).phase i with
    | starting => exact absurd h this.1
    | ready => exact absurd h this.2
    | waiting => exact .inl h
    | returned => exact .inr h
    | failed => exact absurd h (hu.nofail i)
  suffices ∃ more, ∀ i < n, (run n man (run n man (initReady signal) steps) more).phase i = .returned by
    obtain ⟨more, hm⟩ := this
    exact ⟨more, by rw [run_append]; exact hm⟩
  generalize run n man (initReady signal) steps = s at *
  -- one lemma per part of the loop, glued together
  have step4 : ∀ s : State, Up n s → AllIn n s → s.phase 0 = .returned → ∃ more, ∀ i < n, (run n man s more).phase i = .returned :=
    fun s hu ha h0 => finish_checks n man s hu ha hn h0 n (Nat.le_refl n)
  have glue : ∀ (s : State) (m : List Step), (∃ more, ∀ i < n, (run n man (run n man s m) more).phase i = .returned) →
      ∃ more, ∀ i < n, (run n man s more).phase i = .returned := by
    rintro s m ⟨more, hm⟩
    exact ⟨m ++ more, by rw [run_append]; exact hm⟩
  have step3 : ∀ (s : State) (k : Nat), Up n s → AllIn n s → s.phase 0 = .waiting → s.pos = .unlocking k →
      ∃ more, ∀ i < n, (run n man s more).phase i = .returned := by
    intro s k hu ha h0 hp
    obtain ⟨m, hm⟩ := finish_unlock n man hn (n - k) k s rfl hu ha h0 hp
    exact glue s m (step4 _ (hu.run man hn m) (ha.run man hu hn m) hm)
  have step2 : ∀ s : State, Up n s → AllIn n s → s.phase 0 = .waiting → s.pos = .sleeping →
      ∃ more, ∀ i < n, (run n man s more).phase i = .returned := by
    intro s hu ha h0 hp
    apply glue s [.ask]
    have e : run n man s [.ask] = { s with pos := .asked 0, reply := fun _ => none } := by
      show Create.step n man s .ask = _
      simp only [Create.step]
      rw [if_pos ⟨h0, hp⟩]
    have hu1 := hu.run man hn [.ask]
    have ha1 := ha.run man hu hn [.ask]
    rw [e] at hu1 ha1 ⊢
    obtain ⟨m, hm0, hm⟩ := finish_round n man hn n 0 _ rfl hu1 ha1 h0 rfl
    apply glue _ m
    rcases hm with hm | hm
    · exact step3 _ 0 (hu1.run man hn m) (ha1.run man hu1 hn m) hm0 hm
    · exact absurd (fun _ _ => rfl) hm.2
  by_cases h0 : s.phase 0 = .waiting
  · cases hp : s.pos with
    | sleeping => exact step2 s hu ha h0 hp
    | unlocking k => exact step3 s k hu ha h0 hp
    | asked k =>
      obtain ⟨m, hm0, hm⟩ := finish_round n man hn (n - k) k s rfl hu ha h0 hp
      apply glue _ m
      rcases hm with hm | hm
      · exact step3 _ 0 (hu.run man hn m) (ha.run man hu hn m) hm0 hm
      · exact step2 _ (hu.run man hn m) (ha.run man hu hn m) hm0 hm.1
  · exact step4 s hu ha (hst s (hu.nofail 0) (hc 0 hn) h0)

example : ∀ i < 3, called (run 3 1 (initReady fun _ => some true) [.call 2, .call 0, .ask, .call 1, .answer 2]) i := by decide

end Machin.Create
