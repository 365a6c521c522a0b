import Verif.PoolLife.FairTask

/-! # Lemmas: under a fair schedule a closed pool with an empty cache ends, and so does a terminated one -/

namespace Machin.PoolLife

variable {processes : Nat} {s : St}

/-- How far the worker handler is from its end. -/
def whRank (processes : Nat) : WPos → Nat
  | .swept => 2 * processes + 5
  | .head => processes + 3
  | .sending k => k + 1
  | .done => 0

/-- A closed pool without open results. -/
structure Drained (processes : Nat) (s : St) : Prop where
  inv : Inv processes s
  mode : s.mode = .close
  cache : s.cache = []

theorem Drained.notGoOn (h : Drained processes s) : ¬ s.goOn = true := by
  unfold St.goOn
  rw [h.mode, h.cache]
  decide

theorem Drained.killed (h : Drained processes s) : s.killed = false := by
  cases hk : s.killed with
  | false => rfl
  | true => have := (h.inv.killed hk).1; rw [h.mode] at this; cases this

theorem Drained.noTask (h : Drained processes s) (t : Nat) : inTask t s.inq = 0 ∧ total (runs t) s.pool = 0 := by
  have := h.inv.cached h.killed t
  rw [h.cache, List.count_nil] at this
  omega

theorem Drained.notBusy (h : Drained processes s) (i t c : Nat) : s.pool[i]? ≠ some (.busy t c) := by
  intro hi
  have := (h.noTask t).2
  have h2 := total_set (runs t) hi .exited
  simp only [runs, if_true] at h2
  omega

theorem Drained.noTaskHead (h : Drained processes s) (t : Nat) (rest : List Item) : s.inq ≠ .task t :: rest := by
  intro hq
  have := (h.noTask t).1
  rw [hq] at this
  simp [inTask, isTask] at this

/-- How far a drained pool is from its end. -/
def rankD (processes : Nat) (s : St) : Nat := whRank processes s.wh + (if s.rh then 0 else 1) + total alive s.pool

def helpD (s : St) : Step :=
  match s.wh with
  | .swept => .repopulate
  | .head => .leave
  | .sending _ => .send
  | .done => if s.rh then .get (s.pool.findIdx idleB) else .rleave

theorem alive_replicate_le (n : Nat) : total alive (List.replicate n (.idle 0)) ≤ n := by
  have := total_le_length alive_le (List.replicate n (Worker.idle 0))
  simpa using this

theorem Drained.step (maxtasks : Option Nat) (h : Drained processes s) (a : Step) (ha : a ≠ .terminate) :
    Drained processes (step processes maxtasks s a) ∧
      (rankD processes (PoolLife.step processes maxtasks s a) < rankD processes s ∨ PoolLife.step processes maxtasks s a = s) := by
  have hI := h.inv.step maxtasks a
  have hgo := h.notGoOn
  have same : PoolLife.step processes maxtasks s a = s → Drained processes (PoolLife.step processes maxtasks s a) ∧
      (rankD processes (PoolLife.step processes maxtasks s a) < rankD processes s ∨ PoolLife.step processes maxtasks s a = s) := by
    intro e
    rw [e]
    exact ⟨h, Or.inr rfl⟩
  cases a with
  | terminate => exact absurd rfl ha
  | submit => apply same; unfold PoolLife.step; dsimp only; rw [if_neg (by rw [h.mode]; decide)]
  | close => apply same; unfold PoolLife.step; dsimp only; rw [if_neg (by rw [h.mode]; decide)]
  | finish i =>
    apply same
    unfold PoolLife.step
    dsimp only
    split
    · rename_i t c hi; exact absurd hi (h.notBusy i t c)
    · rfl
  | sweep => apply same; unfold PoolLife.step; dsimp only; rw [if_neg (fun e => hgo e.2)]
  | deliver =>
    apply same
    unfold PoolLife.step
    dsimp only
    rw [if_neg hgo]
    split <;> rfl
  | kill => apply same; unfold PoolLife.step; dsimp only; rw [if_neg (by rintro ⟨e, -⟩; rw [h.mode] at e; cases e)]
  | get i =>
    by_cases hc : ∃ c rest, s.pool[i]? = some (.idle c) ∧ s.inq = .stop :: rest
    · obtain ⟨c, rest, h1, h2⟩ := hc
      have e : PoolLife.step processes maxtasks s (.get i) = { s with inq := rest, pool := s.pool.set i .exited } := by
        unfold PoolLife.step
        simp only [h1, h2]
      rw [e] at hI ⊢
      refine ⟨⟨hI, h.mode, h.cache⟩, Or.inl ?_⟩
      have := total_set alive h1 .exited
      simp only [alive] at this
      unfold rankD
      dsimp only
      omega
    · apply same
      unfold PoolLife.step
      dsimp only
      split
      · rename_i c t rest h1 h2; exact absurd h2 (h.noTaskHead t rest)
      · rename_i c rest h1 h2; exact absurd ⟨c, rest, h1, h2⟩ hc
      · rfl
  | repopulate =>
    by_cases hw : s.wh = .swept
    · have e : PoolLife.step processes maxtasks s .repopulate =
          { s with pool := s.pool ++ List.replicate (processes - s.pool.length) (.idle 0), wh := .head } := by
        unfold PoolLife.step; dsimp only; rw [if_pos hw]
      rw [e] at hI ⊢
      refine ⟨⟨hI, h.mode, h.cache⟩, Or.inl ?_⟩
      have := alive_replicate_le (processes - s.pool.length)
      unfold rankD
      dsimp only
      rw [total_append, hw]
      simp only [whRank]
      omega
    · apply same; unfold PoolLife.step; dsimp only; rw [if_neg hw]
  | leave =>
    by_cases hw : s.wh = .head
    · have e : PoolLife.step processes maxtasks s .leave = { s with wh := .sending s.pool.length } := by
        unfold PoolLife.step; dsimp only; rw [if_pos ⟨hw, hgo⟩]
      rw [e] at hI ⊢
      refine ⟨⟨hI, h.mode, h.cache⟩, Or.inl ?_⟩
      have := h.inv.head hw
      unfold rankD
      dsimp only
      rw [hw, this]
      simp only [whRank]
      omega
    · apply same; unfold PoolLife.step; dsimp only; rw [if_neg (fun e => hw e.1)]
  | send =>
    cases hw : s.wh with
    | head => apply same; unfold PoolLife.step; simp only [hw]
    | swept => apply same; unfold PoolLife.step; simp only [hw]
    | done => apply same; unfold PoolLife.step; simp only [hw]
    | sending k =>
      cases k with
      | zero =>
        have e : PoolLife.step processes maxtasks s .send = { s with wh := .done } := by unfold PoolLife.step; simp only [hw]
        rw [e] at hI ⊢
        refine ⟨⟨hI, h.mode, h.cache⟩, Or.inl ?_⟩
        unfold rankD
        dsimp only
        rw [hw]
        simp only [whRank]
        omega
      | succ k =>
        have e : PoolLife.step processes maxtasks s .send = { s with inq := s.inq ++ [.stop], wh := .sending k } := by
          unfold PoolLife.step; simp only [hw]
        rw [e] at hI ⊢
        refine ⟨⟨hI, h.mode, h.cache⟩, Or.inl ?_⟩
        unfold rankD
        dsimp only
        rw [hw]
        simp only [whRank]
        omega
  | rleave =>
    by_cases hr : s.rh = false
    · have e : PoolLife.step processes maxtasks s .rleave = { s with rh := true } := by
        unfold PoolLife.step; dsimp only; rw [if_pos ⟨hr, hgo⟩]
      rw [e] at hI ⊢
      refine ⟨⟨hI, h.mode, h.cache⟩, Or.inl ?_⟩
      unfold rankD
      dsimp only
      rw [hr]
      simp
    · apply same; unfold PoolLife.step; dsimp only; rw [if_neg (fun e => hr e.1)]

theorem helpD_works (maxtasks : Option Nat) (h : Drained processes s) (hj : ¬ Joined s) : PoolLife.step processes maxtasks s (helpD s) ≠ s := by
  have hgo := h.notGoOn
  unfold helpD
  cases hw : s.wh with
  | swept =>
    intro e
    have := congrArg St.wh e
    unfold PoolLife.step at this
    simp [hw] at this
  | head =>
    intro e
    have := congrArg St.wh e
    unfold PoolLife.step at this
    dsimp only at this
    rw [if_pos ⟨hw, hgo⟩, hw] at this
    cases this
  | sending k =>
    intro e
    have := congrArg St.wh e
    unfold PoolLife.step at this
    cases k with
    | zero => simp [hw] at this
    | succ k => simp [hw] at this
  | done =>
    dsimp only
    split
    · rename_i hr
      -- some worker is idle and there is a stop signal for it
      have hal : 0 < total alive s.pool := by
        rcases Nat.eq_zero_or_pos (total alive s.pool) with h0 | h0
        · exfalso
          exact hj ⟨by rw [h.mode]; decide, hw, hr, (alive_zero_iff _).1 h0⟩
        · exact h0
      have hbusy : s.pool.any busyB = false := by
        rw [List.any_eq_false]
        intro w hw' hb
        cases w with
        | idle c => cases hb
        | exited => cases hb
        | busy t c =>
          obtain ⟨i, hi⟩ := List.mem_iff_getElem?.1 hw'
          exact h.notBusy i t c hi
      have hidle : s.pool.any idleB = true := by
        cases hi : s.pool.any idleB with
        | true => rfl
        | false =>
          have := (noAlive_iff s.pool).1 ⟨hbusy, hi⟩
          omega
      have hlt : s.pool.findIdx idleB < s.pool.length := List.findIdx_lt_length.2 (by simpa using hidle)
      have hg := List.findIdx_getElem (w := hlt)
      have hst := h.inv.done hw
      cases hx : s.pool[s.pool.findIdx idleB] with
      | busy t c => rw [hx] at hg; cases hg
      | exited => rw [hx] at hg; cases hg
      | idle c =>
        have h1 : s.pool[s.pool.findIdx idleB]? = some (.idle c) := by rw [List.getElem?_eq_getElem hlt, hx]
        cases hq : s.inq with
        | nil =>
          rw [hq] at hst
          have : stops [] = 0 := rfl
          omega
        | cons x rest =>
          cases x with
          | task t => exact absurd hq (h.noTaskHead t rest)
          | stop =>
            intro e
            have := congrArg St.inq e
            unfold PoolLife.step at this
            simp only [h1, hq] at this
            exact absurd (congrArg List.length this) (by simp)
    · rename_i hr
      intro e
      have := congrArg St.rh e
      unfold PoolLife.step at this
      dsimp only at this
      rw [if_pos ⟨by simpa using hr, hgo⟩] at this
      exact hr this.symm

/-- Along a fair schedule without `terminate` a drained pool comes to its end. -/
theorem drained_fair (maxtasks : Option Nat) (σ : Nat → Step) (hfair : Fair σ) (hok : ∀ n, σ n ≠ .terminate) (s0 : St) (n : Nat)
    (h : Drained processes (traj (step processes maxtasks) σ s0 n)) : ∃ m, n ≤ m ∧ Joined (traj (step processes maxtasks) σ s0 m) := by
  refine fair_rule (PoolLife.step processes maxtasks) σ s0 (Drained processes) Joined (rankD processes) helpD (· ≠ .terminate) (fun a => a.user = false)
    hok hfair ?_ (fun s a ha hI => (hI.step maxtasks a ha).1) ?_ ?_ n h
  · intro s _ _
    unfold helpD
    repeat' split
    all_goals rfl
  · intro s a hI _ ha
    rcases (hI.step maxtasks a ha).2 with e | e
    · exact Or.inr (Or.inl e)
    · exact Or.inr (Or.inr (by rw [e]; exact ⟨rfl, rfl⟩))
  · intro s hI hj
    have hne : helpD s ≠ .terminate := by
      unfold helpD
      repeat' split
      all_goals simp
    rcases (hI.step maxtasks _ hne).2 with e | e
    · exact Or.inr e
    · exact absurd e (helpD_works maxtasks hI hj)

/-! ### Terminated pools -/

def allExited (s : St) : Bool := s.pool.all (· == .exited)

/-- How far a terminated pool is from its end. -/
def rankT (processes : Nat) (s : St) : Nat := 2 * whRank processes s.wh + (if s.rh then 0 else 2) + (if allExited s then 0 else 1)

def helpT (s : St) : Step :=
  match s.wh with
  | .swept => .repopulate
  | .head => .leave
  | .sending _ => .send
  | .done => if s.rh then .kill else .rleave

structure Ended (processes : Nat) (s : St) : Prop where
  inv : Inv processes s
  mode : s.mode = .terminate

theorem Ended.notGoOn (h : Ended processes s) : ¬ s.goOn = true := by
  unfold St.goOn
  rw [h.mode]
  simp

theorem exited_le (s : St) : (if allExited s then 0 else 1) ≤ 1 := by split <;> omega

theorem not_allExited {i : Nat} {w : Worker} (h : s.pool[i]? = some w) (hw : w ≠ .exited) : allExited s = false := by
  unfold allExited
  rw [List.all_eq_false]
  exact ⟨w, List.mem_of_getElem? h, by simpa using hw⟩

theorem Ended.step (maxtasks : Option Nat) (h : Ended processes s) (a : Step) :
    Ended processes (step processes maxtasks s a) ∧
      (rankT processes (PoolLife.step processes maxtasks s a) < rankT processes s ∨
        (rankT processes (PoolLife.step processes maxtasks s a) ≤ rankT processes s ∧ (PoolLife.step processes maxtasks s a).wh = s.wh ∧
          (PoolLife.step processes maxtasks s a).rh = s.rh)) := by
  have hI := h.inv.step maxtasks a
  have hgo := h.notGoOn
  have same : PoolLife.step processes maxtasks s a = s → Ended processes (PoolLife.step processes maxtasks s a) ∧
      (rankT processes (PoolLife.step processes maxtasks s a) < rankT processes s ∨
        (rankT processes (PoolLife.step processes maxtasks s a) ≤ rankT processes s ∧ (PoolLife.step processes maxtasks s a).wh = s.wh ∧
          (PoolLife.step processes maxtasks s a).rh = s.rh)) := by
    intro e
    rw [e]
    exact ⟨h, Or.inr ⟨Nat.le_refl _, rfl, rfl⟩⟩
  cases a with
  | terminate =>
    refine ⟨⟨hI, rfl⟩, Or.inr ⟨Nat.le_refl _, rfl, rfl⟩⟩
  | submit => apply same; unfold PoolLife.step; dsimp only; rw [if_neg (by rw [h.mode]; decide)]
  | close => apply same; unfold PoolLife.step; dsimp only; rw [if_neg (by rw [h.mode]; decide)]
  | sweep => apply same; unfold PoolLife.step; dsimp only; rw [if_neg (fun e => hgo e.2)]
  | deliver =>
    apply same
    unfold PoolLife.step
    dsimp only
    rw [if_neg hgo]
    split <;> rfl
  | finish i =>
    cases hi : s.pool[i]? with
    | none => apply same; unfold PoolLife.step; simp only [hi]
    | some w =>
      cases w with
      | idle c => apply same; unfold PoolLife.step; simp only [hi]
      | exited => apply same; unfold PoolLife.step; simp only [hi]
      | busy t c =>
        have hx := not_allExited hi (by simp)
        have e : PoolLife.step processes maxtasks s (.finish i) = { s with outq := s.outq ++ [t], executed := s.executed ++ [t], pool := s.pool.set i (if exhausted maxtasks (c + 1) then .exited else .idle (c + 1)) } := by
          unfold PoolLife.step; simp only [hi]
        rw [e] at hI ⊢
        refine ⟨⟨hI, h.mode⟩, Or.inr ⟨?_, rfl, rfl⟩⟩
        unfold rankT
        rw [hx]
        exact Nat.add_le_add_left (exited_le _) _
  | get i =>
    cases hi : s.pool[i]? with
    | none => apply same; unfold PoolLife.step; simp only [hi]
    | some w =>
      cases w with
      | busy t c => apply same; unfold PoolLife.step; simp only [hi]
      | exited => apply same; unfold PoolLife.step; simp only [hi]
      | idle c =>
        have hx := not_allExited hi (by simp)
        cases hq : s.inq with
        | nil => apply same; unfold PoolLife.step; simp only [hi, hq]
        | cons x rest =>
          cases x with
          | task t =>
            have e : PoolLife.step processes maxtasks s (.get i) = { s with inq := rest, pool := s.pool.set i (.busy t c) } := by
              unfold PoolLife.step; simp only [hi, hq]
            rw [e] at hI ⊢
            refine ⟨⟨hI, h.mode⟩, Or.inr ⟨?_, rfl, rfl⟩⟩
            unfold rankT
            rw [hx]
            exact Nat.add_le_add_left (exited_le _) _
          | stop =>
            have e : PoolLife.step processes maxtasks s (.get i) = { s with inq := rest, pool := s.pool.set i .exited } := by
              unfold PoolLife.step; simp only [hi, hq]
            rw [e] at hI ⊢
            refine ⟨⟨hI, h.mode⟩, Or.inr ⟨?_, rfl, rfl⟩⟩
            unfold rankT
            rw [hx]
            exact Nat.add_le_add_left (exited_le _) _
  | repopulate =>
    by_cases hw : s.wh = .swept
    · have e : PoolLife.step processes maxtasks s .repopulate =
          { s with pool := s.pool ++ List.replicate (processes - s.pool.length) (.idle 0), wh := .head } := by
        unfold PoolLife.step; dsimp only; rw [if_pos hw]
      rw [e] at hI ⊢
      refine ⟨⟨hI, h.mode⟩, Or.inl ?_⟩
      have := exited_le { s with pool := s.pool ++ List.replicate (processes - s.pool.length) (.idle 0), wh := .head }
      unfold rankT
      dsimp only
      rw [hw]
      simp only [whRank]
      omega
    · apply same; unfold PoolLife.step; dsimp only; rw [if_neg hw]
  | leave =>
    by_cases hw : s.wh = .head
    · have e : PoolLife.step processes maxtasks s .leave = { s with wh := .sending s.pool.length } := by
        unfold PoolLife.step; dsimp only; rw [if_pos ⟨hw, hgo⟩]
      rw [e] at hI ⊢
      refine ⟨⟨hI, h.mode⟩, Or.inl ?_⟩
      have := h.inv.head hw
      unfold rankT allExited
      dsimp only
      rw [hw, this]
      simp only [whRank]
      omega
    · apply same; unfold PoolLife.step; dsimp only; rw [if_neg (fun e => hw e.1)]
  | send =>
    cases hw : s.wh with
    | head => rw [← hw]; apply same; unfold PoolLife.step; simp only [hw]
    | swept => rw [← hw]; apply same; unfold PoolLife.step; simp only [hw]
    | done => rw [← hw]; apply same; unfold PoolLife.step; simp only [hw]
    | sending k =>
      cases k with
      | zero =>
        have e : PoolLife.step processes maxtasks s .send = { s with wh := .done } := by unfold PoolLife.step; simp only [hw]
        rw [e] at hI ⊢
        refine ⟨⟨hI, h.mode⟩, Or.inl ?_⟩
        unfold rankT allExited
        dsimp only
        try rw [hw]
        simp only [whRank]
        omega
      | succ k =>
        have e : PoolLife.step processes maxtasks s .send = { s with inq := s.inq ++ [.stop], wh := .sending k } := by
          unfold PoolLife.step; simp only [hw]
        rw [e] at hI ⊢
        refine ⟨⟨hI, h.mode⟩, Or.inl ?_⟩
        unfold rankT allExited
        dsimp only
        try rw [hw]
        simp only [whRank]
        omega
  | rleave =>
    by_cases hr : s.rh = false
    · have e : PoolLife.step processes maxtasks s .rleave = { s with rh := true } := by
        unfold PoolLife.step; dsimp only; rw [if_pos ⟨hr, hgo⟩]
      rw [e] at hI ⊢
      refine ⟨⟨hI, h.mode⟩, Or.inl ?_⟩
      unfold rankT allExited
      dsimp only
      rw [hr]
      simp
    · apply same; unfold PoolLife.step; dsimp only; rw [if_neg (fun e => hr e.1)]
  | kill =>
    by_cases hk : s.mode = .terminate ∧ s.wh = .done ∧ s.rh
    · have e : PoolLife.step processes maxtasks s .kill = { s with pool := s.pool.map fun _ => .exited, killed := true } := by
        unfold PoolLife.step; dsimp only; rw [if_pos hk]
      rw [e] at hI ⊢
      refine ⟨⟨hI, h.mode⟩, Or.inr ⟨?_, rfl, rfl⟩⟩
      have hall : allExited { s with pool := s.pool.map fun _ => .exited, killed := true } = true := by
        unfold allExited
        simp
      unfold rankT
      rw [hall]
      simp only [if_true]
      omega
    · apply same; unfold PoolLife.step; dsimp only; rw [if_neg hk]

/-- Along a fair schedule a terminated pool comes to its end. -/
theorem ended_fair (maxtasks : Option Nat) (σ : Nat → Step) (hfair : Fair σ) (s0 : St) (n : Nat)
    (h : Ended processes (traj (step processes maxtasks) σ s0 n)) : ∃ m, n ≤ m ∧ Joined (traj (step processes maxtasks) σ s0 m) := by
  refine fair_rule (PoolLife.step processes maxtasks) σ s0 (Ended processes) Joined (rankT processes) helpT (fun _ => True) (fun a => a.user = false)
    (fun _ => trivial) hfair ?_ (fun s a _ hI => (hI.step maxtasks a).1) ?_ ?_ n h
  · intro s _ _
    unfold helpT
    repeat' split
    all_goals rfl
  · intro s a hI _ _
    rcases (hI.step maxtasks a).2 with e | ⟨e1, e2, e3⟩
    · exact Or.inr (Or.inl e)
    · rcases Nat.lt_or_ge (rankT processes (PoolLife.step processes maxtasks s a)) (rankT processes s) with e | e
      · exact Or.inr (Or.inl e)
      · refine Or.inr (Or.inr ⟨by omega, ?_⟩)
        unfold helpT
        rw [e2, e3]
  · intro s hI hj
    have hs := (hI.step maxtasks (helpT s)).2
    have hgo := hI.notGoOn
    cases hw : s.wh with
    | swept =>
      right
      have e : helpT s = .repopulate := by unfold helpT; rw [hw]
      rw [e] at hs ⊢
      rcases hs with h1 | ⟨-, h2, -⟩
      · exact h1
      · unfold PoolLife.step at h2
        simp [hw] at h2
    | head =>
      right
      have e : helpT s = .leave := by unfold helpT; rw [hw]
      rw [e] at hs ⊢
      rcases hs with h1 | ⟨-, h2, -⟩
      · exact h1
      · unfold PoolLife.step at h2
        dsimp only at h2
        rw [if_pos ⟨hw, hgo⟩, hw] at h2
        cases h2
    | sending k =>
      right
      have e : helpT s = .send := by unfold helpT; rw [hw]
      rw [e] at hs ⊢
      rcases hs with h1 | ⟨-, h2, -⟩
      · exact h1
      · unfold PoolLife.step at h2
        cases k with
        | zero => simp [hw] at h2
        | succ k => simp [hw] at h2
    | done =>
      by_cases hr : s.rh = true
      · left
        have e : helpT s = .kill := by unfold helpT; rw [hw]; simp [hr]
        rw [e]
        unfold PoolLife.step
        dsimp only
        rw [if_pos ⟨hI.mode, hw, hr⟩]
        refine ⟨by dsimp only; rw [hI.mode]; decide, hw, hr, ?_⟩
        intro w hw'
        simp only [List.mem_map] at hw'
        obtain ⟨_, _, e⟩ := hw'
        exact e.symm
      · right
        have e : helpT s = .rleave := by unfold helpT; rw [hw]; simp [hr]
        rw [e] at hs ⊢
        rcases hs with h1 | ⟨-, -, h2⟩
        · exact h1
        · unfold PoolLife.step at h2
          dsimp only at h2
          rw [if_pos ⟨by simpa using hr, hgo⟩] at h2
          exact absurd h2.symm hr

end Machin.PoolLife
