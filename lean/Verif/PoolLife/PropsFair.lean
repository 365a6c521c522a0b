import Verif.PoolLife.FairLemmas
import Mathlib.Data.Nat.Pairing

/-!
# C200: along every fair schedule a pool does its work and ends

C174 says that an end can always be reached; here it is reached, whatever the order of the steps is, as long as every step of
every worker and handler is tried again and again. The user may go on submitting tasks all the time.
-/

namespace Machin.PoolLife

/-- The state after the first `n` steps of a schedule. -/
def after (processes : Nat) (maxtasks : Option Nat) (σ : Nat → Step) (n : Nat) : St :=
  run processes maxtasks (init processes) ((List.range n).map σ)

/-- Every step of the handlers and of every worker is tried infinitely often. Nothing is asked about the calls of the user. -/
def FairSchedule (σ : Nat → Step) : Prop :=
  ∀ a : Step, a ≠ .submit → a ≠ .close → a ≠ .terminate → ∀ n, ∃ m, n ≤ m ∧ σ m = a

theorem FairSchedule.fair {σ : Nat → Step} (h : FairSchedule σ) : Fair σ := by
  intro a ha
  exact h a (by rintro rfl; cases ha) (by rintro rfl; cases ha) (by rintro rfl; cases ha)

theorem after_eq (processes : Nat) (maxtasks : Option Nat) (σ : Nat → Step) (n : Nat) :
    after processes maxtasks σ n = traj (step processes maxtasks) σ (init processes) n := (traj_eq_run maxtasks σ _ n).symm

/-- As long as nobody calls `terminate`, every task that has been submitted at some moment is delivered later: none is starved,
even if tasks are submitted for ever and workers are replaced after every task. -/
theorem C200_every_task (processes : Nat) (maxtasks : Option Nat) (σ : Nat → Step) (hp : 0 < processes) (hf : FairSchedule σ)
    (ht : ∀ n, σ n ≠ .terminate) (n t : Nat) (h : t ∈ (after processes maxtasks σ n).submitted) :
    ∃ m, n ≤ m ∧ ∀ k, m ≤ k → t ∈ (after processes maxtasks σ k).executed ∧ t ∈ (after processes maxtasks σ k).delivered := by
  rw [after_eq] at h
  obtain ⟨m, h1, h2⟩ := submitted_fair maxtasks hp σ hf.fair ht (Inv.init processes) (fun e => nomatch e) h
  refine ⟨m, h1, fun k hk => ?_⟩
  rw [after_eq]
  have h3 := traj_delivered maxtasks σ (init processes) hk h2
  refine ⟨?_, h3⟩
  have h4 := (traj_inv maxtasks σ (Inv.init processes) k).executed t
  have h5 := List.count_pos_iff.2 h3
  exact List.count_pos_iff.1 (by omega)

/-- After `close`, and without `terminate`, `join` returns at some moment and everything that was submitted has been executed and
delivered exactly once. -/
theorem C200_close (processes : Nat) (maxtasks : Option Nat) (σ : Nat → Step) (hp : 0 < processes) (hf : FairSchedule σ)
    (ht : ∀ n, σ n ≠ .terminate) (n : Nat) (hc : (after processes maxtasks σ n).mode = .close) :
    ∃ m, n ≤ m ∧ ∀ k, m ≤ k → Joined (after processes maxtasks σ k) ∧
      (after processes maxtasks σ k).submitted = (after processes maxtasks σ n).submitted ∧
      ∀ t, (after processes maxtasks σ k).executed.count t = (after processes maxtasks σ n).submitted.count t ∧
        (after processes maxtasks σ k).delivered.count t = (after processes maxtasks σ n).submitted.count t := by
  rw [after_eq] at hc
  obtain ⟨m, h1, h2⟩ := close_fair maxtasks hp σ hf.fair ht (Inv.init processes) hc (fun e => nomatch e)
  refine ⟨m, h1, fun k hk => ?_⟩
  have hj : Joined (traj (step processes maxtasks) σ (init processes) k) := by
    obtain ⟨j, rfl⟩ := Nat.exists_eq_add_of_le hk
    clear hk
    induction j with
    | zero => exact h2
    | succ j ih => exact (joined_step processes maxtasks ih (σ (m + j))).1
  obtain ⟨h3, h4⟩ := traj_close maxtasks σ ht (init processes) (Nat.le_trans h1 hk) hc
  have hI := traj_inv maxtasks σ (Inv.init processes) k
  rw [after_eq, after_eq]
  refine ⟨hj, h4, fun t => ?_⟩
  rw [← h4]
  have hcache := (hI.left (Or.inr hj.2.1)).2 h3
  have hk : (traj (step processes maxtasks) σ (init processes) k).killed = false := by
    cases hk : (traj (step processes maxtasks) σ (init processes) k).killed with
    | false => rfl
    | true => have := (hI.killed hk).1; rw [h3] at this; cases this
  have e1 := hI.account t
  have e2 := hI.executed t
  have e3 := hI.cached hk t
  rw [hcache, List.count_nil] at e1 e3
  omega

/-- After `terminate`, `join` returns at some moment, whatever the user calls then. -/
theorem C200_terminate (processes : Nat) (maxtasks : Option Nat) (σ : Nat → Step) (hf : FairSchedule σ) (n : Nat)
    (hc : (after processes maxtasks σ n).mode = .terminate) :
    ∃ m, n ≤ m ∧ ∀ k, m ≤ k → Joined (after processes maxtasks σ k) := by
  rw [after_eq] at hc
  obtain ⟨m, h1, h2⟩ := ended_fair maxtasks σ hf.fair (init processes) n ⟨traj_inv maxtasks σ (Inv.init processes) n, hc⟩
  refine ⟨m, h1, fun k hk => ?_⟩
  rw [after_eq]
  obtain ⟨j, rfl⟩ := Nat.exists_eq_add_of_le hk
  clear hk
  induction j with
  | zero => exact h2
  | succ j ih => exact (joined_step processes maxtasks ih (σ (m + j))).1

/-! ### A fair schedule -/

/-- All steps except those of the user, by number. -/
def stepNo (k : Nat) : Step :=
  match k % 9 with
  | 0 => .get (k / 9)
  | 1 => .finish (k / 9)
  | 2 => .sweep
  | 3 => .repopulate
  | 4 => .leave
  | 5 => .send
  | 6 => .deliver
  | 7 => .rleave
  | _ => .kill

/-- Submit two tasks, do something, close, and go through all steps infinitely often. -/
def schedule (n : Nat) : Step :=
  if n = 0 ∨ n = 1 then .submit else if n = 7 then .close else stepNo n.unpair.1

theorem schedule_often (k n : Nat) : ∃ m, n ≤ m ∧ schedule m = stepNo k := by
  refine ⟨Nat.pair k (n + 8), ?_, ?_⟩
  · have := Nat.right_le_pair k (n + 8); omega
  · have := Nat.right_le_pair k (n + 8)
    unfold schedule
    rw [if_neg (by omega), if_neg (by omega), Nat.unpair_pair]

theorem stepNo_all (a : Step) (h1 : a ≠ .submit) (h2 : a ≠ .close) (h3 : a ≠ .terminate) : ∃ k, stepNo k = a := by
  cases a with
  | submit => exact absurd rfl h1
  | close => exact absurd rfl h2
  | terminate => exact absurd rfl h3
  | get i => exact ⟨9 * i, by unfold stepNo; simp⟩
  | finish i => exact ⟨9 * i + 1, by
      have : (9 * i + 1) % 9 = 1 := by omega
      have h : (9 * i + 1) / 9 = i := by omega
      unfold stepNo
      simp only [this, h]⟩
  | sweep => exact ⟨2, rfl⟩
  | repopulate => exact ⟨3, rfl⟩
  | leave => exact ⟨4, rfl⟩
  | send => exact ⟨5, rfl⟩
  | deliver => exact ⟨6, rfl⟩
  | rleave => exact ⟨7, rfl⟩
  | kill => exact ⟨8, rfl⟩

/-- It is fair, contains no `terminate`, and the pool of two workers of one task each is closed with two tasks in it. -/
example : FairSchedule schedule ∧ (∀ n, schedule n ≠ .terminate) ∧ (after 2 (some 1) schedule 8).mode = .close ∧
    (after 2 (some 1) schedule 8).submitted = [0, 1] ∧ (after 2 (some 1) schedule 8).delivered = [] := by
  refine ⟨?_, ?_, ?_⟩
  · intro a h1 h2 h3 n
    obtain ⟨k, rfl⟩ := stepNo_all a h1 h2 h3
    exact schedule_often k n
  · intro n
    unfold schedule
    split
    · decide
    · split
      · decide
      · unfold stepNo
        split <;> intro h <;> cases h
  · decide +kernel

/-- The same with `terminate` called once. -/
example : FairSchedule (fun n => if n = 8 then .terminate else schedule n) ∧
    (after 2 (some 1) (fun n => if n = 8 then .terminate else schedule n) 9).mode = .terminate := by
  refine ⟨?_, by decide +kernel⟩
  intro a h1 h2 h3 n
  obtain ⟨k, rfl⟩ := stepNo_all a h1 h2 h3
  obtain ⟨m, hm, e⟩ := schedule_often k (n + 9)
  refine ⟨m, by omega, ?_⟩
  dsimp only
  rw [if_neg (by omega), e]

end Machin.PoolLife
