import Verif.Wire.Lemmas
import Verif.Wire.Spec

/-! # Properties of constructing pools (C198, C199) -/

namespace Machin.Wire

/-! ### C198: workers are started as asked -/

/-- Full statement: a constructed pool starts its workers with the method and the daemon flag asked for. -/
def C198_full : Prop :=
  ∀ (cpus : Nat) (k : Kind) (s : Settings) (p : Made), make cpus k s = .ok p → (p.start, p.daemon) = askedStart k s

/-- What is asked for by default: spawned daemons which copy tensors, two workers. -/
def defaults : Settings := ⟨some 2, none, none, none, true, true, none⟩

/-- `Pool` and `P2PPool` start daemons although `is_daemon=False` is given. -/
theorem C198_violated_daemon (k : Kind) (hk : k = .pool ∨ k = .p2p) (cpus : Nat) :
    make cpus k { defaults with isDaemon := false } = .ok ⟨2, .spawn, true, true, none, none⟩ := by
  rcases hk with rfl | rfl <;> rfl

/-- `CtxPool` forks although tensors are copied (the documented default being spawn): it does not pass its context to the workers. -/
theorem C198_violated_fork (cpus : Nat) : make cpus .ctx defaults = .ok ⟨2, .fork, true, true, none, none⟩ := rfl

theorem C198_violated : ¬ C198_full := by
  intro h
  have := h 1 .ctx defaults _ (C198_violated_fork 1)
  exact absurd this (by decide)

/-- What holds: exactly how the workers of each class are started. `Pool` and `P2PPool` use the method asked for and are daemons; `CtxPool` forks and has the daemon
flag asked for; thread pools have daemon threads. -/
theorem C198_partial (cpus : Nat) (k : Kind) (s : Settings) (p : Made) (h : make cpus k s = .ok p) :
    (k = .pool ∨ k = .p2p → p.start = (askedStart k s).1 ∧ p.daemon = true) ∧
      (k = .ctx → p.start = .fork ∧ p.daemon = s.isDaemon) ∧ (k.process = false → p.start = .thread ∧ p.daemon = true) := by
  have key : ∀ (k : Kind) (s : Settings) (u : Option Bool) (p : Made), makePool cpus k s u = .ok p →
      (k = .pool ∨ k = .p2p → p.start = (askedStart k s).1 ∧ p.daemon = true) ∧
        (k = .ctx → p.start = .fork ∧ p.daemon = s.isDaemon) ∧ (k.process = false → p.start = .thread ∧ p.daemon = true) := by
    intro k s u p h
    unfold makePool at h
    simp only at h
    generalize s.processes.getD _ = q at h
    split at h
    · cases h
    split at h
    · cases h
    split at h
    · cases h
    cases k <;> (cases h; simp [Kind.process, askedStart])
  cases k with
  | pool => exact key _ _ _ _ h
  | p2p => exact key _ _ _ _ h
  | thread => exact key _ _ _ _ h
  | ctx =>
    unfold make at h
    simp only at h
    split at h
    · split at h
      · cases h
      · exact key _ _ _ _ h
    · cases h
    · cases h
    · exact key _ _ _ _ h
  | ctxThread =>
    refine ⟨by simp, by simp, fun _ => ?_⟩
    unfold make at h
    simp only at h
    split at h
    · split at h
      · cases h
      · exact (key _ _ _ _ h).2.2 rfl
    · cases h
    · cases h
    · exact (key _ _ _ _ h).2.2 rfl

/-- The three classes with the settings of the witnesses, and sharing of cpu tensors. -/
example : make 4 .pool { defaults with isCopy := false, shareMethod := some "cpu" } = .ok ⟨2, .fork, true, false, none, none⟩ ∧
    make 4 .ctx { defaults with isDaemon := false } = .ok ⟨2, .fork, false, true, none, none⟩ ∧
    make 4 .thread { defaults with processes := none } = .ok ⟨4, .thread, true, true, none, none⟩ := by decide

/-! ### C199: settings that cannot work are refused at construction -/

/-- Full statement: a pool is constructed exactly with sensible settings, and then its workers start. -/
def C199_full : Prop :=
  ∀ (cpus : Nat) (k : Kind) (s : Settings), (Sensible k s ↔ ∃ p, make cpus k s = .ok p) ∧ ∀ p, make cpus k s = .ok p → workerStart p = .ok ()

/-- A pool of any class but `CtxThreadPool` is constructed with `maxtasksperchild=0`; every worker it starts ends with a `ValueError` (of the message of the
assertion) before its first task, so that the pool never does any work. -/
theorem C199_violated_maxtasks (cpus : Nat) (k : Kind) (hk : k ≠ .ctxThread) :
    ∃ p, make cpus k { defaults with maxtasks := some 0 } = .ok p ∧ p.maxtasks = some 0 ∧ workerStart p = .error .value := by
  cases k <;> first | exact ⟨_, rfl, rfl, rfl⟩ | exact absurd rfl hk

/-- A context pool is constructed with an initializer that is not callable; its workers end with a `TypeError`. -/
theorem C199_violated_initializer (cpus : Nat) (k : Kind) (hk : k = .ctx ∨ k = .ctxThread) :
    ∃ p, make cpus k { defaults with initializer := some false } = .ok p ∧ workerStart p = .error .type := by
  rcases hk with rfl | rfl <;> exact ⟨_, rfl, rfl⟩

theorem C199_violated : ¬ C199_full := by
  intro h
  obtain ⟨p, h1, -, h2⟩ := C199_violated_maxtasks 1 .pool (by decide)
  have := (h 1 .pool _).2 p h1
  rw [h2] at this
  cases this

/-- What is refused and with what: exactly fewer than one worker, contexts that are not as many as the workers, no number of workers for a context pool, no share
method without copying, and for `Pool`, `P2PPool` and `ThreadPool` an initializer that is not callable. Workers of an accepted pool start exactly if the
initializer is callable and `maxtasksperchild` is positive; there are as many of them as asked for. -/
theorem C199_partial (cpus : Nat) (k : Kind) (s : Settings) :
    ((∃ p, make cpus k s = .ok p) ↔
      (∀ n, s.processes = some n → 1 ≤ n) ∧ (k = .ctx ∨ k = .ctxThread → s.processes ≠ none) ∧
        (k ≠ .ctx → k ≠ .ctxThread → s.initializer ≠ some false) ∧
        (k = .ctx ∨ k = .ctxThread → ∀ n : Nat, s.contexts = some n → s.processes = some (n : Int)) ∧
        (k ≠ .ctxThread → s.isCopy = false → s.shareMethod = some "cpu" ∨ s.shareMethod = some "cuda")) ∧
      ∀ p, make cpus k s = .ok p →
        (workerStart p = .ok () ↔ s.initializer ≠ some false ∧ (k ≠ .ctxThread → ∀ n, s.maxtasks = some n → 1 ≤ n)) ∧
          (∀ n, s.processes = some n → (p.workers : Int) = n) ∧ 1 ≤ p.workers := by
  have hstart : ∀ p : Made, workerStart p = .ok () ↔ p.initializer ≠ some false ∧ ∀ n, p.maxtasks = some n → 1 ≤ n := by
    intro p
    unfold workerStart
    cases p.maxtasks with
    | none =>
      match p.initializer with
      | none => simp
      | some true => simp
      | some false => simp
    | some n =>
      by_cases hn : n < 1
      · simp [hn]
      · have : 1 ≤ n := by omega
        match p.initializer with
        | none => simp [hn, this]
        | some true => simp [hn, this]
        | some false => simp [hn]
  have simple : ∀ k : Kind, k ≠ .ctx → k ≠ .ctxThread → make cpus k s = makePool cpus k s s.initializer := by
    intro k h1 h2
    cases k <;> first | rfl | exact absurd rfl h1 | exact absurd rfl h2
  by_cases hk : k = .ctx ∨ k = .ctxThread
  · -- the settings that reach `Pool.__init__`
    have hctx : ∃ s' : Settings, s'.processes = s.processes ∧ s'.initializer = s.initializer ∧
        (k ≠ .ctxThread → s'.maxtasks = s.maxtasks ∧ s'.isCopy = s.isCopy ∧ s'.shareMethod = s.shareMethod) ∧
        (k = .ctxThread → s'.maxtasks = none ∧ s'.isCopy = true) ∧
        make cpus k s = match s.contexts, s.processes with
          | some n, some p => if (n : Int) ≠ p then .error .value else makePool cpus k s' (some true)
          | some _, none => .error .value
          | none, none => .error .type
          | none, some _ => makePool cpus k s' (some true) := by
      rcases hk with rfl | rfl
      · exact ⟨s, rfl, rfl, fun _ => ⟨rfl, rfl, rfl⟩, fun h => absurd h (by decide), rfl⟩
      · exact ⟨{ s with maxtasks := none, isDaemon := true, isCopy := true, shareMethod := none }, rfl, rfl, fun h => absurd rfl h, fun _ => ⟨rfl, rfl⟩, rfl⟩
    obtain ⟨s', hp, hi, hn, ht, hm⟩ := hctx
    obtain ⟨hiff, hall⟩ := makePool_iff cpus k s' (some true)
    rw [hp] at hiff
    have hshare : (s'.isCopy = false → s'.shareMethod = some "cpu" ∨ s'.shareMethod = some "cuda") ↔
        (k ≠ .ctxThread → s.isCopy = false → s.shareMethod = some "cpu" ∨ s.shareMethod = some "cuda") := by
      by_cases h : k = .ctxThread
      · simp [h, (ht h).2]
      · simp [h, (hn h).2.1, (hn h).2.2]
    have hmax : (∀ n, s'.maxtasks = some n → 1 ≤ n) ↔ (k ≠ .ctxThread → ∀ n, s.maxtasks = some n → 1 ≤ n) := by
      by_cases h : k = .ctxThread
      · simp [h, (ht h).1]
      · simp [h, (hn h).1]
    have hni : ¬ (k ≠ .ctx ∧ k ≠ .ctxThread) := by
      rintro ⟨h1, h2⟩
      rcases hk with h | h
      · exact h1 h
      · exact h2 h
    have hok : ∀ p, make cpus k s = .ok p → makePool cpus k s' (some true) = .ok p := by
      intro p h
      rw [hm] at h
      split at h
      · split at h
        · cases h
        · exact h
      · cases h
      · cases h
      · exact h
    refine ⟨?_, ?_⟩
    · constructor
      · rintro ⟨p, h⟩
        have h' := hok p h
        obtain ⟨e1, -, e2⟩ := hiff.1 ⟨p, h'⟩
        refine ⟨e1, ?_, fun h1 h2 => absurd ⟨h1, h2⟩ hni, ?_, hshare.1 e2⟩
        · intro _ hnone
          rw [hm, hnone] at h
          cases hc : s.contexts with
          | none => simp only [hc] at h; cases h
          | some n => simp only [hc] at h; cases h
        · intro _ n hc
          cases hpp : s.processes with
          | none =>
            rw [hm] at h
            simp only [hc, hpp] at h
            cases h
          | some q =>
            rw [hm] at h
            simp only [hc, hpp] at h
            split at h
            · cases h
            · rename_i hne
              simp at hne
              rw [hne]
      · rintro ⟨e1, e2, -, e3, e4⟩
        obtain ⟨p, hpok⟩ := hiff.2 ⟨e1, by simp, hshare.2 e4⟩
        refine ⟨p, ?_⟩
        rw [hm]
        cases hpp : s.processes with
        | none => exact absurd hpp (e2 hk)
        | some q =>
          cases hc : s.contexts with
          | none => simp only; exact hpok
          | some n =>
            have := e3 hk n hc
            rw [hpp, Option.some.injEq] at this
            simp [this, hpok]
    · intro p h
      obtain ⟨a1, a2, a3, a4⟩ := hall p (hok p h)
      rw [hp] at a3
      refine ⟨?_, a3, a4⟩
      rw [hstart p, a1, a2, hi, hmax]
  · have h1 : k ≠ .ctx := fun h => hk (Or.inl h)
    have h2 : k ≠ .ctxThread := fun h => hk (Or.inr h)
    obtain ⟨hiff, hall⟩ := makePool_iff cpus k s s.initializer
    rw [simple k h1 h2]
    refine ⟨?_, ?_⟩
    · rw [hiff]
      simp [h1, h2]
    · intro p h
      obtain ⟨a1, a2, a3, a4⟩ := hall p h
      refine ⟨?_, a3, a4⟩
      rw [hstart p, a1, a2]
      simp [h2]

/-- Consequence: with sensible settings every pool is constructed and its workers start. -/
theorem C199_sensible_partial (cpus : Nat) (k : Kind) (s : Settings) (h : Sensible k s) : ∃ p, make cpus k s = .ok p ∧ workerStart p = .ok () := by
  obtain ⟨h1, h2⟩ := C199_partial cpus k s
  obtain ⟨p, hp⟩ := h1.2 ⟨h.processes, h.given, fun _ _ => h.initializer, h.contexts, h.share⟩
  exact ⟨p, hp, ((h2 p hp).1).2 ⟨h.initializer, h.maxtasks⟩⟩

/-- Sensible settings for every class, and the refusals. -/
example : (∀ k, Sensible k defaults) ∧ make 1 .pool { defaults with processes := some 0 } = .error .value ∧
    make 1 .ctx { defaults with contexts := some 3 } = .error .value ∧ make 1 .ctx { defaults with processes := none } = .error .type ∧
    make 1 .p2p { defaults with isCopy := false } = .error .runtime ∧ make 1 .thread { defaults with initializer := some false } = .error .type := by
  refine ⟨fun k => ⟨?_, ?_, ?_, ?_, ?_, ?_⟩, by decide, by decide, by decide, by decide, by decide⟩ <;> simp [defaults]

end Machin.Wire
