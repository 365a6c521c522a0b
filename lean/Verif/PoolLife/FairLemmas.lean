import Verif.PoolLife.FairEnd

/-! # Lemmas: schedules as histories, closed pools -/

namespace Machin.PoolLife

variable {processes : Nat}

theorem traj_eq_run (maxtasks : Option Nat) (σ : Nat → Step) (s : St) (n : Nat) :
    traj (step processes maxtasks) σ s n = run processes maxtasks s ((List.range n).map σ) := by
  induction n with
  | zero => rfl
  | succ n ih =>
    rw [List.range_succ, List.map_append, run_append, ← ih]
    rfl

theorem traj_inv (maxtasks : Option Nat) (σ : Nat → Step) {s : St} (h : Inv processes s) (n : Nat) :
    Inv processes (traj (step processes maxtasks) σ s n) := by
  rw [traj_eq_run]
  exact h.run maxtasks _

theorem traj_delivered (maxtasks : Option Nat) (σ : Nat → Step) (s : St) {t n m : Nat} (hnm : n ≤ m)
    (h : t ∈ (traj (step processes maxtasks) σ s n).delivered) : t ∈ (traj (step processes maxtasks) σ s m).delivered := by
  obtain ⟨k, rfl⟩ := Nat.exists_eq_add_of_le hnm
  induction k with
  | zero => exact h
  | succ k ih =>
    obtain ⟨l, hl⟩ := delivered_step processes maxtasks (traj (step processes maxtasks) σ s (n + k)) (σ (n + k))
    show t ∈ (step processes maxtasks (traj (step processes maxtasks) σ s (n + k)) (σ (n + k))).delivered
    rw [hl]
    exact List.mem_append_left _ (ih (by omega))

theorem close_step (maxtasks : Option Nat) {s : St} (a : Step) (ha : a ≠ .terminate) (hm : s.mode = .close) :
    (step processes maxtasks s a).mode = .close ∧ (step processes maxtasks s a).submitted = s.submitted := by
  cases a <;> unfold step <;> dsimp only <;> repeat' split
  all_goals first
    | exact ⟨hm, rfl⟩
    | exact absurd rfl ha
    | (rename_i h; rw [hm] at h; cases h)

theorem traj_close (maxtasks : Option Nat) (σ : Nat → Step) (hok : ∀ n, σ n ≠ .terminate) (s : St) {n m : Nat} (hnm : n ≤ m)
    (h : (traj (step processes maxtasks) σ s n).mode = .close) :
    (traj (step processes maxtasks) σ s m).mode = .close ∧
      (traj (step processes maxtasks) σ s m).submitted = (traj (step processes maxtasks) σ s n).submitted := by
  obtain ⟨k, rfl⟩ := Nat.exists_eq_add_of_le hnm
  induction k with
  | zero => exact ⟨h, rfl⟩
  | succ k ih =>
    obtain ⟨h1, h2⟩ := ih (by omega)
    obtain ⟨h3, h4⟩ := close_step (processes := processes) maxtasks (σ (n + k)) (hok _) h1
    exact ⟨h3, h4.trans h2⟩

theorem traj_mode (maxtasks : Option Nat) (σ : Nat → Step) (hok : ∀ n, σ n ≠ .terminate) {s : St} (hs : s.mode ≠ .terminate) (n : Nat) :
    (traj (step processes maxtasks) σ s n).mode ≠ .terminate := by
  induction n with
  | zero => exact hs
  | succ n ih => exact mode_step processes maxtasks _ _ (hok n) ih

theorem submitted_fair (maxtasks : Option Nat) (hp : 0 < processes) (σ : Nat → Step) (hfair : Fair σ) (hok : ∀ n, σ n ≠ .terminate)
    {s : St} (hs : Inv processes s) (hm : s.mode ≠ .terminate) {n t : Nat} (ht : t ∈ (traj (step processes maxtasks) σ s n).submitted) :
    ∃ m, n ≤ m ∧ t ∈ (traj (step processes maxtasks) σ s m).delivered := by
  by_cases hd : t ∈ (traj (step processes maxtasks) σ s n).delivered
  · exact ⟨n, Nat.le_refl _, hd⟩
  have hI := traj_inv maxtasks σ hs n
  refine task_fair maxtasks hp σ hfair hok s n ⟨hI, traj_mode maxtasks σ hok hm n, ?_⟩
  have h1 := hI.account t
  rw [List.count_eq_zero.2 hd] at h1
  have h2 : (traj (step processes maxtasks) σ s n).submitted.count t ≤ 1 := by
    rw [hI.distinct]
    exact List.nodup_iff_count.1 List.nodup_range t
  have h3 := List.count_pos_iff.2 ht
  omega

/-- A closed pool delivers everything. -/
theorem all_fair (maxtasks : Option Nat) (hp : 0 < processes) (σ : Nat → Step) (hfair : Fair σ) (hok : ∀ n, σ n ≠ .terminate)
    {s : St} (hs : Inv processes s) (hm : s.mode ≠ .terminate) (n : Nat) (l : List Nat)
    (hl : ∀ t ∈ l, t ∈ (traj (step processes maxtasks) σ s n).submitted) :
    ∃ m, n ≤ m ∧ ∀ t ∈ l, t ∈ (traj (step processes maxtasks) σ s m).delivered := by
  induction l with
  | nil => exact ⟨n, Nat.le_refl _, fun t h => nomatch h⟩
  | cons t l ih =>
    obtain ⟨m1, h1, h2⟩ := ih (fun x hx => hl x (List.mem_cons_of_mem _ hx))
    obtain ⟨m2, h3, h4⟩ := submitted_fair maxtasks hp σ hfair hok hs hm (hl t List.mem_cons_self)
    refine ⟨max m1 m2, Nat.le_trans h1 (Nat.le_max_left _ _), fun x hx => ?_⟩
    rcases List.mem_cons.1 hx with rfl | hx
    · exact traj_delivered maxtasks σ s (Nat.le_max_right _ _) h4
    · exact traj_delivered maxtasks σ s (Nat.le_max_left _ _) (h2 x hx)

theorem close_fair (maxtasks : Option Nat) (hp : 0 < processes) (σ : Nat → Step) (hfair : Fair σ) (hok : ∀ n, σ n ≠ .terminate)
    {s : St} (hs : Inv processes s) {n : Nat} (hc : (traj (step processes maxtasks) σ s n).mode = .close) (hm : s.mode ≠ .terminate) :
    ∃ m, n ≤ m ∧ Joined (traj (step processes maxtasks) σ s m) := by
  obtain ⟨m, h1, h2⟩ := all_fair maxtasks hp σ hfair hok hs hm n _ (fun t h => h)
  obtain ⟨h3, h4⟩ := traj_close maxtasks σ hok s h1 hc
  have hI := traj_inv maxtasks σ hs m
  have hcache : (traj (step processes maxtasks) σ s m).cache = [] := by
    rw [List.eq_nil_iff_forall_not_mem]
    intro t ht
    have e1 := hI.account t
    have e2 : (traj (step processes maxtasks) σ s m).submitted.count t ≤ 1 := by
      rw [hI.distinct]
      exact List.nodup_iff_count.1 List.nodup_range t
    have e3 := List.count_pos_iff.2 ht
    have e4 : t ∈ (traj (step processes maxtasks) σ s n).submitted := by
      rw [← h4]
      exact List.count_pos_iff.1 (by omega)
    have e5 := List.count_pos_iff.2 (h2 t e4)
    omega
  obtain ⟨k, h5, h6⟩ := drained_fair maxtasks σ hfair hok s m ⟨hI, h3, hcache⟩
  exact ⟨k, Nat.le_trans h1 h5, h6⟩

end Machin.PoolLife
