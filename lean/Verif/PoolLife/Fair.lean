import Verif.PoolLife.Live

/-! # Lemmas: what must happen when every step is tried again and again -/

namespace Machin.PoolLife

/-! ### A rule for fair schedules -/

/-- The states along an infinite schedule. -/
def traj {S A : Type} (f : S → A → S) (σ : Nat → A) (s : S) : Nat → S
  | 0 => s
  | n + 1 => f (traj f σ s n) (σ n)

/-- If a step that would help stays the same until the rank decreases, and every helping step comes again and again, the goal is reached. -/
theorem fair_rule {S A : Type} (f : S → A → S) (σ : Nat → A) (s0 : S) (I Goal : S → Prop) (rank : S → Nat) (help : S → A) (Ok Fair : A → Prop)
    (hok : ∀ n, Ok (σ n)) (hfair : ∀ a, Fair a → ∀ n, ∃ m, n ≤ m ∧ σ m = a) (hf : ∀ s, I s → ¬ Goal s → Fair (help s))
    (hI : ∀ s a, Ok a → I s → I (f s a))
    (hstep : ∀ s a, I s → ¬ Goal s → Ok a → Goal (f s a) ∨ rank (f s a) < rank s ∨ (rank (f s a) = rank s ∧ help (f s a) = help s))
    (hhelp : ∀ s, I s → ¬ Goal s → Goal (f s (help s)) ∨ rank (f s (help s)) < rank s) (n : Nat) (hn : I (traj f σ s0 n)) :
    ∃ m, n ≤ m ∧ Goal (traj f σ s0 m) := by
  have hall : ∀ k, I (traj f σ s0 (n + k)) := by
    intro k
    induction k with
    | zero => exact hn
    | succ k ih => exact hI _ _ (hok _) ih
  have succ : ∀ j, traj f σ s0 (j + 1) = f (traj f σ s0 j) (σ j) := fun _ => rfl
  have main : ∀ r j, n ≤ j → rank (traj f σ s0 j) < r → ∃ m, n ≤ m ∧ Goal (traj f σ s0 m) := by
    intro r
    induction r with
    | zero => intro j _ h; omega
    | succ r ih =>
      intro i hi hr
      by_cases hg : Goal (traj f σ s0 i)
      · exact ⟨_, hi, hg⟩
      have hI' : ∀ j, n ≤ j → I (traj f σ s0 j) := by
        intro j hj
        obtain ⟨k, rfl⟩ := Nat.exists_eq_add_of_le hj
        exact hall k
      have key : ∀ j, (∃ m, n ≤ m ∧ Goal (traj f σ s0 m)) ∨ (rank (traj f σ s0 (i + j)) < r + 1 ∧ ¬ Goal (traj f σ s0 (i + j)) ∧
          help (traj f σ s0 (i + j)) = help (traj f σ s0 i)) := by
        intro j
        induction j with
        | zero => exact Or.inr ⟨hr, hg, rfl⟩
        | succ j ihj =>
          rcases ihj with h | ⟨h1, h2, h3⟩
          · exact Or.inl h
          rw [← Nat.add_assoc, succ]
          rcases hstep _ (σ (i + j)) (hI' _ (by omega)) h2 (hok _) with h | h | ⟨h, h'⟩
          · exact Or.inl ⟨i + j + 1, by omega, h⟩
          · exact Or.inl (ih (i + j + 1) (by omega) (by rw [succ]; omega))
          · by_cases hg' : Goal (f (traj f σ s0 (i + j)) (σ (i + j)))
            · exact Or.inl ⟨i + j + 1, by omega, hg'⟩
            · exact Or.inr ⟨by omega, hg', by rw [h', h3]⟩
      obtain ⟨m, hm1, hm2⟩ := hfair _ (hf _ (hI' i hi) hg) i
      obtain ⟨j, rfl⟩ := Nat.exists_eq_add_of_le hm1
      rcases key j with h | ⟨h1, h2, h3⟩
      · exact h
      rcases hhelp _ (hI' (i + j) (by omega)) h2 with h | h
      · refine ⟨i + j + 1, by omega, ?_⟩
        rw [succ, hm2, ← h3]
        exact h
      · refine ih (i + j + 1) (by omega) ?_
        rw [succ, hm2, ← h3]
        omega
  exact main _ n (Nat.le_refl _) (Nat.lt_succ_self _)

/-- A number for two numbers in lexicographic order. -/
theorem enc_lt {B x y x' y' : Nat} (hx : x' < x) (hy : y' < B) : x' * B + y' < x * B + y := by
  have h1 : (x' + 1) * B ≤ x * B := Nat.mul_le_mul_right B hx
  rw [Nat.succ_mul] at h1
  omega

/-! ### Schedules of a pool -/

/-- The steps which the user decides on. -/
def Step.user : Step → Bool
  | .submit => true
  | .close => true
  | .terminate => true
  | _ => false

/-- Every step of the handlers and the workers is tried again and again. -/
def Fair (σ : Nat → Step) : Prop := ∀ a : Step, a.user = false → ∀ n, ∃ m, n ≤ m ∧ σ m = a

/-- Is the worker exited? -/
def isExited : Worker → Nat
  | .exited => 1
  | _ => 0

def busyB : Worker → Bool
  | .busy _ _ => true
  | _ => false

def idleB : Worker → Bool
  | .idle _ => true
  | _ => false

/-- The states in which a task is not yet delivered and nobody has called `terminate`. -/
structure Open (processes : Nat) (t : Nat) (s : St) : Prop where
  inv : Inv processes s
  mode : s.mode ≠ .terminate
  cached : s.cache.count t = 1

theorem Open.killed {processes t : Nat} {s : St} (h : Open processes t s) : s.killed = false := by
  cases hk : s.killed with
  | false => rfl
  | true => exact absurd (h.inv.killed hk).1 h.mode

theorem Open.nonempty {processes t : Nat} {s : St} (h : Open processes t s) : s.cache ≠ [] := by
  intro hc
  have := h.cached
  rw [hc] at this
  simp at this

theorem Open.mode' {processes t : Nat} {s : St} (h : Open processes t s) : s.mode = .run ∨ s.mode = .close := by
  cases hm : s.mode with
  | run => exact Or.inl rfl
  | close => exact Or.inr rfl
  | terminate => exact absurd hm h.mode

theorem Open.goOn {processes t : Nat} {s : St} (h : Open processes t s) : s.goOn = true := by
  unfold St.goOn
  have := h.nonempty
  rcases h.mode' with hm | hm <;> rw [hm]
  · rfl
  · cases hc : s.cache with
    | nil => exact absurd hc this
    | cons a l => rfl

theorem Open.notLeft {processes t : Nat} {s : St} (h : Open processes t s) : ¬ Left s := by
  intro hl
  obtain ⟨h1, h2⟩ := h.inv.left hl
  rcases h.mode' with hm | hm
  · exact h1 hm
  · exact h.nonempty (h2 hm)

theorem Open.rh {processes t : Nat} {s : St} (h : Open processes t s) : s.rh = false := by
  cases hr : s.rh with
  | false => rfl
  | true =>
    obtain ⟨h1, h2⟩ := h.inv.rleft hr
    rcases h.mode' with hm | hm
    · exact absurd hm h1
    · exact absurd (h2 hm) h.nonempty

theorem Open.wh {processes t : Nat} {s : St} (h : Open processes t s) : s.wh = .head ∨ s.wh = .swept := by
  cases hc : s.wh with
  | head => exact Or.inl rfl
  | swept => exact Or.inr rfl
  | sending k => exact absurd (Or.inl ⟨k, hc⟩) h.notLeft
  | done => exact absurd (Or.inr hc) h.notLeft

theorem Open.length {processes t : Nat} {s : St} (h : Open processes t s) : s.pool.length ≤ processes := by
  rcases h.wh with hw | hw
  · rw [h.inv.head hw]; exact Nat.le_refl _
  · exact h.inv.swept hw

theorem Open.place {processes t : Nat} {s : St} (h : Open processes t s) :
    inTask t s.inq + total (runs t) s.pool + s.outq.count t = 1 := by
  rw [← h.inv.cached h.killed t, h.cached]

/-- Everything that is delivered stays delivered. -/
theorem delivered_step (processes : Nat) (maxtasks : Option Nat) (s : St) (a : Step) :
    ∃ l, (step processes maxtasks s a).delivered = s.delivered ++ l := by
  have triv : ∃ l, s.delivered = s.delivered ++ l := ⟨[], by simp⟩
  cases a <;> unfold step <;> dsimp only <;> repeat' split
  all_goals first | exact triv | exact ⟨[_], rfl⟩

theorem submitted_step (processes : Nat) (maxtasks : Option Nat) (s : St) (a : Step) :
    ∃ l, (step processes maxtasks s a).submitted = s.submitted ++ l := by
  have triv : ∃ l, s.submitted = s.submitted ++ l := ⟨[], by simp⟩
  cases a <;> unfold step <;> dsimp only <;> repeat' split
  all_goals first | exact triv | exact ⟨[_], rfl⟩

theorem mode_step (processes : Nat) (maxtasks : Option Nat) (s : St) (a : Step) (ha : a ≠ .terminate) (hm : s.mode ≠ .terminate) :
    (step processes maxtasks s a).mode ≠ .terminate := by
  cases a <;> unfold step <;> dsimp only <;> repeat' split
  all_goals first | exact hm | exact absurd rfl ha | simp

/-- An open task stays open until it is delivered. -/
theorem Open.step {processes t : Nat} {s : St} (maxtasks : Option Nat) (h : Open processes t s) (a : Step) (ha : a ≠ .terminate) :
    Open processes t (step processes maxtasks s a) ∨ t ∈ (PoolLife.step processes maxtasks s a).delivered := by
  have hI := h.inv.step maxtasks a
  have hM := mode_step processes maxtasks s a ha h.mode
  by_cases hd : t ∈ (PoolLife.step processes maxtasks s a).delivered
  · exact Or.inr hd
  refine Or.inl ⟨hI, hM, ?_⟩
  obtain ⟨l, hl⟩ := submitted_step processes maxtasks s a
  have h1 := hI.account t
  rw [List.count_eq_zero.2 hd, hl, List.count_append] at h1
  have h2 := h.inv.account t
  rw [h.cached] at h2
  have h3 : (PoolLife.step processes maxtasks s a).submitted.count t ≤ 1 := by
    rw [hI.distinct]
    exact List.nodup_iff_count.1 List.nodup_range t
  rw [hl, List.count_append] at h3
  omega

end Machin.PoolLife
