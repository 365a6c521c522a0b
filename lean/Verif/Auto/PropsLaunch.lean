import Verif.Auto.Launcher
import Verif.Replay.Props

/-! # Properties C127-C129: the launchers -/

namespace Machin.Auto

open Replay Machin.Replay.Spec

variable {F ι V C τ : Type}

/-! ### Specification of one item -/

namespace Spec

/-- What must happen with one log entry: a tuple whose second part is callable is handed to it, anything else is logged. -/
def logged (sync : String → Bool) (e : String × LogVal V C) : Ev V C :=
  match e.2 with
  | .tuple (x :: .callable c :: _) => .call c e.1 x
  | v => .log e.1 v (sync e.1)

/-- What must happen with one item: store it, make `n` updates, then handle the logs. -/
def handled (sync : String → Bool) (n : Nat) (logs : List (String × LogVal V C)) : List (Ev V C) :=
  .store :: List.replicate n .update ++ logs.map (logged sync)

end Spec

theorem logAll_ok {sync : String → Bool} : ∀ {l : List (String × LogVal V C)} {evs : List (Ev V C)}, logAll sync l = (evs, .ok ()) →
    evs = l.map (Spec.logged sync)
  | [], evs, h => by simp [logAll] at h; simp [h]
  | (k, v) :: rest, evs, h => by
    simp only [logAll] at h
    split at h
    · simp at h
    · rename_i ev hev
      simp only [Prod.mk.injEq] at h
      obtain ⟨h1, h2⟩ := h
      have := logAll_ok (sync := sync) (l := rest) (evs := (logAll sync rest).1) (Prod.ext rfl h2)
      rw [← h1, this, List.map_cons]
      congr 1
      match v, hev with
      | .plain v, hev => simp [logOne] at hev; rw [← hev]; rfl
      | .tuple (x :: .callable c :: _), hev => simp [logOne] at hev; rw [← hev]; rfl
      | .tuple (x :: .value y :: l), hev => simp [logOne] at hev; rw [← hev]; rfl

theorem updates_ok (ops : Ops F ι) : ∀ {n : Nat} {f f' : F} {evs : List (Ev V C)}, updates ops n f = (f', evs, .ok ()) →
    evs = List.replicate n .update
  | 0, f, f', evs, h => by simp [updates] at h; simp [h]
  | n + 1, f, f', evs, h => by
    simp only [updates] at h
    split at h
    · simp at h
    · rename_i f1 _
      simp only [Prod.mk.injEq] at h
      have := updates_ok ops (n := n) (f := f1) (f' := f') (evs := (updates ops n f1).2.1) (Prod.ext h.1 (Prod.ext rfl h.2.2))
      rw [← h.2.1, this, List.replicate_succ]

theorem trainOne_ok (ops : Ops F ι) {sync : String → Bool} {doUpdate doLog : Bool} {s : Sample ι V C} {f f' : F} {evs : List (Ev V C)}
    (h : trainOne ops sync doUpdate doLog s f = (f', evs, .ok ())) :
    evs = Spec.handled sync (if doUpdate then s.observations.length else 0) (if doLog then s.logs.flatten else []) := by
  unfold trainOne at h
  split at h
  · simp at h
  rename_i f1 _
  dsimp only at h
  split at h
  · simp at h
  rename_i f2 evs' hr
  have hevs : evs' = List.replicate (if doUpdate then s.observations.length else 0) .update := by
    cases doUpdate
    · simp at hr; simp [hr]
    · simp only [if_true] at hr ⊢; exact updates_ok ops hr
  cases doLog
  · simp only [Bool.false_eq_true, if_false, Prod.mk.injEq, and_true] at h
    rw [← h.2, hevs]
    simp [Spec.handled]
  · simp only [if_true, Prod.mk.injEq] at h
    have := logAll_ok (sync := sync) (l := s.logs.flatten) (evs := (logAll sync s.logs.flatten).1) (Prod.ext rfl h.2.2)
    rw [← h.2.1, this, hevs]
    simp [Spec.handled]

/-! ### C127: every transition of an episode is followed by an update -/

/-- C127, for every algorithm: if a training step finishes, it has stored every episode of the batch once, made as many updates as the episode has
transitions, and then handled its logs, one episode after the other. -/
theorem C127_order_partial (ops : Ops F ι) : ∀ (batch : List (Sample ι V C)) (f f' : F) (evs : List (Ev V C)),
    trainingStep ops batch f = (f', evs, .ok ()) →
    evs = batch.flatMap fun s => Spec.handled (fun _ => false) s.observations.length s.logs.flatten
  | [], f, f', evs, h => by simp [trainingStep] at h; simp [h]
  | s :: rest, f, f', evs, h => by
    simp only [trainingStep] at h
    split at h
    · simp at h
    rename_i f1 evs1 h1
    simp only [Prod.mk.injEq] at h
    have h2 := C127_order_partial ops rest f1 f' (trainingStep ops rest f1).2.1 (Prod.ext h.1 (Prod.ext rfl h.2.2))
    have h3 := trainOne_ok ops h1
    simp only [if_true] at h3
    rw [← h.2.1, h2, h3, List.flatMap_cons]

/-- C127 in full, for the algorithms that learn from complete episodes (A2C, A3C, PPO, TRPO, GAIL): a training step with an acceptable episode
finishes. -/
def C127_full : Prop :=
  ∀ (conv : Nat → Except Err Nat) (rng : Nat → List Nat → Nat → List Nat), (∀ i, SampleContract (rng i)) →
    ∀ (f : OnPolicy Nat) (N : Nat), f.buf = Buffer.new Nat N → f.actorTimes ≠ some 0 → 1 ≤ f.criticTimes → 1 ≤ f.batch →
    ∀ (ep ys : List Nat), 1 ≤ ep.length → ep.length ≤ N → ep.mapM conv = .ok ys →
      (trainingStep (onPolicyOps conv rng) [(⟨ep, []⟩ : Sample Nat Nat Nat)] f).2.2 = .ok ()

/-- A buffer with accepted episodes can be sampled. -/
theorem sampled (conv : ι → Except Err τ) (N : Nat) (hN : 1 ≤ N) (h : List (List ι)) (hle : ∀ ep ∈ h, ep.length ≤ N)
    (hne : accepted conv h ≠ []) (sample : List Nat → Nat → List Nat) (hs : SampleContract sample) (batch : Nat) (hb : 1 ≤ batch) :
    (∃ k x l, ((Buffer.new τ N).run conv h).sampleRandomUnique sample batch = .ok (k, x :: l)) ∧
    ∃ k x l, ((Buffer.new τ N).run conv h).sampleAll = .ok (k, x :: l) := by
  have hlens := accepted_lengths conv h hle
  have hk := keep_ne_nil hne (fun e he => (hlens e he).1)
  have hpos : 0 < (keep N (accepted conv h)).flatten.length := by
    obtain ⟨P, hP⟩ := keep_suffix N (accepted conv h)
    cases hkk : keep N (accepted conv h) with
    | nil => exact absurd hkk hk
    | cons e es =>
      have : e ∈ accepted conv h := by rw [hP, hkk]; simp
      have := List.length_pos_iff.2 (hlens e this).2
      simp only [List.flatten_cons, List.length_append]; omega
  obtain ⟨⟨l, hl, h1⟩, -, h2⟩ := C03_sampling conv N hN h hle batch sample (fun pop k => List.replicate k (pop.headD 0)) hs (by
    intro pop k hk
    refine ⟨by simp, ?_⟩
    intro x hx
    obtain ⟨hk0, rfl⟩ := List.mem_replicate.1 hx
    cases pop with
    | nil => simp at hk; omega
    | cons a l => simp)
  refine ⟨?_, ?_⟩
  · rw [h1]
    have : ((l.take (min (keep N (accepted conv h)).flatten.length batch))).length ≠ 0 := by
      rw [List.length_take, hl.length_eq]; omega
    cases hx : l.take (min (keep N (accepted conv h)).flatten.length batch) with
    | nil => rw [hx] at this; simp at this
    | cons x l' => exact ⟨_, x, l', rfl⟩
  · rw [h2]
    cases hx : (keep N (accepted conv h)).flatten with
    | nil => rw [hx] at hpos; simp at hpos
    | cons x l' => exact ⟨_, x, l', rfl⟩

theorem sampleTimes_ok (rng : Nat → List Nat → Nat → List Nat) : ∀ (n : Nat) (f : OnPolicy τ),
    (∀ i, ∃ k x l, f.buf.sampleRandomUnique (rng i) f.batch = .ok (k, x :: l)) →
    f.sampleTimes rng n = ({ f with drawn := f.drawn + n }, .ok ())
  | 0, f, _ => by simp [OnPolicy.sampleTimes]
  | n + 1, f, h => by
    obtain ⟨k, x, l, hs⟩ := h f.drawn
    simp only [OnPolicy.sampleTimes, hs]
    rw [sampleTimes_ok rng n { f with drawn := f.drawn + 1 } h]
    simp [Nat.add_assoc, Nat.add_comm 1]

/-- The first update of a buffer with accepted episodes succeeds and clears the buffer. -/
theorem update_ok (conv : ι → Except Err τ) (rng : Nat → List Nat → Nat → List Nat) (hrng : ∀ i, SampleContract (rng i)) (f : OnPolicy τ)
    (N : Nat) (hN : 1 ≤ N) (h : List (List ι)) (hle : ∀ ep ∈ h, ep.length ≤ N) (hne : accepted conv h ≠ [])
    (hbuf : f.buf = (Buffer.new τ N).run conv h) (ha : f.actorTimes ≠ some 0) (hc : 1 ≤ f.criticTimes) (hb : 1 ≤ f.batch) :
    ∃ d, f.update rng = ({ f with buf := f.buf.clear, drawn := d }, .ok ()) := by
  have hsamp : ∀ i, ∃ k x l, f.buf.sampleRandomUnique (rng i) f.batch = .ok (k, x :: l) := fun i => by
    rw [hbuf]; exact (sampled conv N hN h hle hne (rng i) (hrng i) f.batch hb).1
  have hall : ∃ k x l, f.buf.sampleAll = .ok (k, x :: l) := by
    rw [hbuf]; exact (sampled conv N hN h hle hne (rng 0) (hrng 0) f.batch hb).2
  have hc0 : f.criticTimes ≠ 0 := by omega
  unfold OnPolicy.update
  rw [sampleTimes_ok rng _ f hsamp]
  dsimp only
  cases hat : f.actorTimes with
  | some n =>
    have hn : n ≠ 0 := by rintro rfl; exact ha hat
    simp only [OnPolicy.sampleActor, hat]
    rw [sampleTimes_ok rng n ⟨f.buf, f.disc, some n, f.criticTimes, f.batch, f.drawn + f.disc⟩ hsamp]
    dsimp only
    rw [sampleTimes_ok rng _ ⟨f.buf, f.disc, some n, f.criticTimes, f.batch, f.drawn + f.disc + n⟩ hsamp]
    simp [hn, hc0]
  | none =>
    obtain ⟨k, x, l, hall⟩ := hall
    simp only [OnPolicy.sampleActor, hat, hall]
    rw [sampleTimes_ok rng _ ⟨f.buf, f.disc, none, f.criticTimes, f.batch, f.drawn + f.disc⟩ hsamp]
    simp [hc0]

/-- **C127** (partial): an algorithm set to make no updates of its actor or of its critic clears its buffer and then divides by zero. -/
theorem C127_no_updates_partial (conv : ι → Except Err τ) (rng : Nat → List Nat → Nat → List Nat) (hrng : ∀ i, SampleContract (rng i)) (f : OnPolicy τ)
    (N : Nat) (hN : 1 ≤ N) (h : List (List ι)) (hle : ∀ ep ∈ h, ep.length ≤ N) (hne : accepted conv h ≠ [])
    (hbuf : f.buf = (Buffer.new τ N).run conv h) (h0 : f.actorTimes = some 0 ∨ f.criticTimes = 0) (hb : 1 ≤ f.batch) :
    ∃ d, f.update rng = ({ f with buf := f.buf.clear, drawn := d }, .error .zeroDiv) := by
  have hsamp : ∀ i, ∃ k x l, f.buf.sampleRandomUnique (rng i) f.batch = .ok (k, x :: l) := fun i => by
    rw [hbuf]; exact (sampled conv N hN h hle hne (rng i) (hrng i) f.batch hb).1
  have hall : ∃ k x l, f.buf.sampleAll = .ok (k, x :: l) := by
    rw [hbuf]; exact (sampled conv N hN h hle hne (rng 0) (hrng 0) f.batch hb).2
  unfold OnPolicy.update
  rw [sampleTimes_ok rng _ f hsamp]
  dsimp only
  cases hat : f.actorTimes with
  | some n =>
    simp only [OnPolicy.sampleActor, hat]
    rw [sampleTimes_ok rng n ⟨f.buf, f.disc, some n, f.criticTimes, f.batch, f.drawn + f.disc⟩ hsamp]
    dsimp only
    rw [sampleTimes_ok rng _ ⟨f.buf, f.disc, some n, f.criticTimes, f.batch, f.drawn + f.disc + n⟩ hsamp]
    rw [hat] at h0
    simp only [h0, if_true]
    exact ⟨_, rfl⟩
  | none =>
    obtain ⟨k, x, l, hall⟩ := hall
    simp only [OnPolicy.sampleActor, hat, hall]
    rw [sampleTimes_ok rng _ ⟨f.buf, f.disc, none, f.criticTimes, f.batch, f.drawn + f.disc⟩ hsamp]
    rw [hat] at h0
    simp only [h0, if_true]
    exact ⟨_, rfl⟩

/-- An algorithm without critic updates. -/
example : ((⟨(Buffer.new Nat 3).run (fun x => .ok x) [[7]], 0, some 1, 0, 1, 0⟩ : OnPolicy Nat).update (fun _ pop k => pop.take k)).2 = .error .zeroDiv := by
  decide +kernel

/-- **C127** (partial): before any episode is stored, the first sampling of an update yields nothing to unpack and raises `TypeError`. -/
theorem C127_empty_partial (rng : Nat → List Nat → Nat → List Nat) (hrng : ∀ i, SampleContract (rng i)) (f : OnPolicy τ) (N : Nat)
    (hbuf : f.buf = Buffer.new τ N) (ha : f.actorTimes ≠ some 0) : ∃ d, f.update rng = ({ f with drawn := d }, .error .type) := by
  have hrand : ∀ i, f.buf.sampleRandomUnique (rng i) f.batch = .ok (0, []) := fun i => by
    obtain ⟨l, hl, h1⟩ := hrng i [] 0 (by simp)
    have : rng i [] 0 = [] := by rw [h1]; simp
    rw [hbuf]
    simp [Buffer.sampleRandomUnique, Buffer.new, PyDict.keys, this, Storage.new, Buffer.fetch]
  have hall : f.buf.sampleAll = .ok (0, []) := by
    rw [hbuf]
    rfl
  obtain ⟨buf, disc, at', ct, bs, dr⟩ := f
  dsimp only at hrand hall ha
  unfold OnPolicy.update
  cases disc with
  | succ n => simp only [OnPolicy.sampleTimes, hrand]; exact ⟨_, rfl⟩
  | zero =>
    simp only [OnPolicy.sampleTimes, OnPolicy.sampleActor]
    cases at' with
    | some n =>
      cases n with
      | zero => exact absurd rfl ha
      | succ n => simp only [OnPolicy.sampleTimes, hrand]; exact ⟨_, rfl⟩
    | none =>
      simp only [hall]
      exact ⟨dr, rfl⟩

example : ((⟨Buffer.new Nat 3, 0, none, 1, 1, 0⟩ : OnPolicy Nat).update (fun _ pop k => pop.take k)).2 = .error .type := by decide +kernel

/-- The next update, without a new episode, fails. -/
theorem update_cleared (conv : ι → Except Err τ) (rng : Nat → List Nat → Nat → List Nat) (hrng : ∀ i, SampleContract (rng i)) (f : OnPolicy τ)
    (N : Nat) (hN : 1 ≤ N) (h : List (List ι)) (hle : ∀ ep ∈ h, ep.length ≤ N) (hne : accepted conv h ≠ [])
    (hbuf : f.buf = ((Buffer.new τ N).run conv h).clear) (ha : f.actorTimes ≠ some 0) (hb : 1 ≤ f.batch) :
    ∃ d, f.update rng = ({ f with drawn := d }, .error .index) := by
  have hrand : ∀ i, f.buf.sampleRandomUnique (rng i) f.batch = .error .index := fun i => by
    rw [hbuf]; exact (C05_sample_after_clear_fails conv N hN h hle hne (rng i) (hrng i) f.batch hb).2
  have hall : f.buf.sampleAll = .error .index := by
    rw [hbuf]; exact (C05_sample_after_clear_fails conv N hN h hle hne (rng 0) (hrng 0) f.batch hb).1
  obtain ⟨buf, disc, at', ct, bs, dr⟩ := f
  dsimp only at hrand hall ha
  unfold OnPolicy.update
  cases disc with
  | succ n => simp only [OnPolicy.sampleTimes, hrand]; exact ⟨_, rfl⟩
  | zero =>
    simp only [OnPolicy.sampleTimes, OnPolicy.sampleActor]
    cases at' with
    | some n =>
      cases n with
      | zero => exact absurd rfl ha
      | succ n => simp only [OnPolicy.sampleTimes, hrand]; exact ⟨_, rfl⟩
    | none =>
      simp only [hall]
      exact ⟨dr, rfl⟩

/-- C127 does not hold for A2C, A3C, PPO, TRPO and GAIL: whatever episodes were stored before and whatever the settings, every acceptable episode with
at least two transitions makes the launcher fail. The first update clears the buffer, the second one raises `IndexError`; no log is written. -/
theorem C127_violated_onpolicy (conv : ι → Except Err τ) (rng : Nat → List Nat → Nat → List Nat) (hrng : ∀ i, SampleContract (rng i))
    (f : OnPolicy τ) (N : Nat) (h : List (List ι)) (hle : ∀ ep ∈ h, ep.length ≤ N) (hbuf : f.buf = (Buffer.new τ N).run conv h)
    (ha : f.actorTimes ≠ some 0) (hc : 1 ≤ f.criticTimes) (hb : 1 ≤ f.batch)
    (ep : List ι) (ys : List τ) (h2 : 2 ≤ ep.length) (hN : ep.length ≤ N) (hep : ep.mapM conv = .ok ys)
    (logs : List (List (String × LogVal V C))) (rest : List (Sample ι V C)) :
    ∃ f', trainingStep (onPolicyOps conv rng) (⟨ep, logs⟩ :: rest) f = (f', [.store, .update, .update], .error .index) ∧ f'.buf.size = 0 := by
  have h1N : 1 ≤ N := by omega
  have hne : ep ≠ [] := by rintro rfl; simp at h2
  have hinv := run_inv conv h _ _ (BInv.new τ h1N) hle
  obtain ⟨b', hb', -⟩ := storeEpisode_accept conv hinv ep ys hne hep hN
  have hrun : (Buffer.new τ N).run conv (h ++ [ep]) = b' := by
    simp only [Buffer.run, List.foldl_append, List.foldl_cons, List.foldl_nil]
    have := congrArg Prod.fst hb'
    exact this
  have hle' : ∀ e ∈ h ++ [ep], e.length ≤ N := by
    intro e he
    rcases List.mem_append.1 he with he | he
    · exact hle e he
    · rw [List.mem_singleton.1 he]; exact hN
  have hacc : accepted conv (h ++ [ep]) ≠ [] := by
    have : accepted conv [ep] = [ys] := by rw [accepted_cons, if_neg hne, hep]; rfl
    unfold accepted at this ⊢
    rw [List.filterMap_append, this]
    simp
  obtain ⟨d1, hu1⟩ := update_ok conv rng hrng { f with buf := b' } N h1N (h ++ [ep]) hle' hacc hrun.symm ha hc hb
  obtain ⟨d2, hu2⟩ := update_cleared conv rng hrng { f with buf := b'.clear, drawn := d1 } N h1N (h ++ [ep]) hle' hacc
    (by rw [hrun]) ha hb
  obtain ⟨m, hm⟩ : ∃ m, ep.length = m + 1 + 1 := ⟨ep.length - 2, by omega⟩
  refine ⟨{ f with buf := b'.clear, drawn := d2 }, ?_, rfl⟩
  simp only [trainingStep, trainOne, onPolicyOps, OnPolicy.store, hne, if_false, hbuf, hb', if_true, hm, updates]
  simp only [hu1, hu2]

theorem C127_violated : ¬ C127_full := by
  intro h
  have := h (fun x => .ok x) (fun _ pop k => pop.take k) (fun _ pop k _ => ⟨pop, List.Perm.refl _, rfl⟩)
    ⟨Buffer.new Nat 3, 0, some 5, 10, 100, 0⟩ 3 rfl (by simp) (by decide) (by decide) [7, 8] [7, 8] (by decide) (by decide) rfl
  revert this
  decide

/-- C127, an episode of exactly one transition is trained on, already by the modelled algorithms. -/
theorem C127_single_partial (conv : ι → Except Err τ) (rng : Nat → List Nat → Nat → List Nat) (hrng : ∀ i, SampleContract (rng i))
    (f : OnPolicy τ) (N : Nat) (hN : 1 ≤ N) (hbuf : f.buf = Buffer.new τ N) (ha : f.actorTimes ≠ some 0) (hc : 1 ≤ f.criticTimes)
    (hb : 1 ≤ f.batch) (x : ι) (y : τ) (hx : conv x = .ok y) :
    ∃ f', trainingStep (onPolicyOps conv rng) [(⟨[x], []⟩ : Sample ι V C)] f = (f', [.store, .update], .ok ()) := by
  have hep : [x].mapM conv = .ok [y] := by simp [List.mapM_cons, List.mapM_nil, hx, bind, Except.bind, pure, Except.pure]
  obtain ⟨b', hb', -⟩ := storeEpisode_accept conv (BInv.new τ hN) [x] [y] (by simp) hep hN
  have hrun : (Buffer.new τ N).run conv [[x]] = b' := congrArg Prod.fst hb'
  have hacc : accepted conv [[x]] ≠ [] := by rw [accepted_cons, if_neg (by simp), hep]; simp
  obtain ⟨d1, hu1⟩ := update_ok conv rng hrng { f with buf := b' } N hN [[x]] (by simpa using hN) hacc hrun.symm ha hc hb
  refine ⟨{ f with buf := b'.clear, drawn := d1 }, ?_⟩
  simp only [trainingStep, trainOne, onPolicyOps, OnPolicy.store, List.cons_ne_nil, if_false, hbuf, hb', if_true, List.length_singleton,
    updates, hu1]
  simp [logAll]

/-- C127, what holds for an algorithm whose `store_episode` and `update` do not fail (such as DQN): a training step whose logs are well formed
finishes. Missing: the algorithms whose update clears the buffer. -/
theorem C127_finishes_partial (ops : Ops F ι) (hs : ∀ f ep, (ops.store f ep).2 = .ok ()) (hu : ∀ f, (ops.update f).2 = .ok ())
    (batch : List (Sample ι V C)) (hl : ∀ s ∈ batch, (logAll (fun _ => false) s.logs.flatten).2 = .ok ()) (f : F) :
    (trainingStep ops batch f).2.2 = .ok () := by
  have hup : ∀ n f, (updates (V := V) (C := C) ops n f).2.2 = .ok () := by
    intro n
    induction n with
    | zero => intro f; rfl
    | succ n ih =>
      intro f
      have := hu f
      simp only [updates]
      split
      · rename_i hh; rw [hh] at this; simp at this
      · exact ih _
  induction batch generalizing f with
  | nil => rfl
  | cons s rest ih =>
    simp only [trainingStep]
    have h1 : (trainOne ops (fun _ => false) true true s f).2.2 = .ok () := by
      unfold trainOne
      have := hs f s.observations
      split
      · rename_i hh; rw [hh] at this; simp at this
      · rename_i f1 _
        dsimp only
        have h2 := hup s.observations.length f1
        split
        · rename_i hh; simp only [if_true] at hh; rw [hh] at h2; simp at h2
        · simp only [if_true]
          exact hl s (by simp)
    split
    · rename_i hh; rw [hh] at h1; simp at h1
    · exact ih (fun s hs => hl s (by simp [hs])) _

/-- ARS and MADDPG have no `store_episode`: a launcher cannot make a single training step with them. -/
theorem C127_violated_store (upd : F → F × Except Err Unit) (s : Sample ι V C) (rest : List (Sample ι V C)) (f : F) :
    trainingStep (noStore upd) (s :: rest) f = (f, [.store], .error .attribute) := rfl

example : trainingStep (onPolicyOps (fun x : Nat => (.ok x : Except Err Nat)) (fun _ pop k => pop.take k))
    [(⟨[7, 8], [[("a", .plain 3)]]⟩ : Sample Nat Nat Nat)] ⟨Buffer.new Nat 3, 0, some 2, 2, 100, 0⟩ =
    (⟨⟨⟨3, [], 2⟩, [(0, 0), (1, 0)], [(0, [0, 1])], 1⟩, 0, some 2, 2, 100, 5⟩, [.store, .update, .update], .error .index) := by rfl
example : ((trainingStep ⟨fun f _ => (f + 1, .ok ()), fun f => (f + 10, .ok ())⟩
    [(⟨[7, 8], [[("a", .plain 3)]]⟩ : Sample Nat Nat Nat), ⟨[9], [[("v", .tuple [.value 4, .callable 0])]]⟩] 0)) =
    (32, [.store, .update, .update, .log "a" (.plain 3) false, .store, .update, .call 0 "v" (.value 4)], .ok ()) := by rfl

/-! ### C128: the distributed launcher -/

theorem distLoop_ok (ops : Ops F ι) (sync : String → Bool) (doUpdate : Bool) : ∀ (batch : List (Sample ι V C)) (idx : Nat) (f f' : F)
    (evs : List (Ev V C)), distLoop ops sync doUpdate idx batch f = (f', evs, .ok ()) →
    evs = (batch.zipIdx idx).flatMap fun p =>
      Spec.handled sync (if doUpdate then p.1.observations.length else 0) (if p.2 = 0 then p.1.logs.flatten else [])
  | [], idx, f, f', evs, h => by simp [distLoop] at h; simp [h]
  | s :: rest, idx, f, f', evs, h => by
    simp only [distLoop] at h
    split at h
    · simp at h
    rename_i f1 evs1 h1
    simp only [Prod.mk.injEq] at h
    have h2 := distLoop_ok ops sync doUpdate rest (idx + 1) f1 f' (distLoop ops sync doUpdate (idx + 1) rest f1).2.1 (Prod.ext h.1 (Prod.ext rfl h.2.2))
    have h3 := trainOne_ok ops h1
    rw [← h.2.1, h2, h3, List.zipIdx_cons, List.flatMap_cons]
    simp

/-- C128: a finished training step of the distributed launcher has stored every episode of its batch, has made as many updates as each has transitions
except in the very first batch (epoch 0, batch 0), where it makes none, has handled the logs of the first episode of the batch only, reducing over
the processes exactly the monitored values of an initialised process group, and has then passed the barrier. -/
theorem C128_order (ops : Ops F ι) (monitors : List String) (dist : Bool) (epoch batchIdx : Nat) (batch : List (Sample ι V C)) (f f' : F)
    (evs : List (Ev V C)) (h : distTrainingStep ops monitors dist epoch batchIdx batch f = (f', evs, .ok ())) :
    evs = (batch.zipIdx.flatMap fun p =>
      Spec.handled (fun k => decide (k ∈ monitors ∧ dist = true)) (if epoch = 0 ∧ batchIdx = 0 then 0 else p.1.observations.length)
        (if p.2 = 0 then p.1.logs.flatten else [])) ++ [.barrier] := by
  unfold distTrainingStep at h
  split at h
  · simp at h
  rename_i f1 evs1 h1
  simp only [Prod.mk.injEq, and_true] at h
  have h2 := distLoop_ok ops _ _ batch 0 f f1 evs1 h1
  rw [← h.2, h2]
  congr 1
  congr 1
  funext p
  have hsync : (fun k => decide (k ∈ monitors) && dist) = fun k => decide (k ∈ monitors ∧ dist = true) := by
    funext k; cases dist <;> simp
  rw [hsync]
  by_cases hz : epoch = 0 ∧ batchIdx = 0
  · simp [hz]
  · have : epoch ≠ 0 ∨ batchIdx ≠ 0 := by
      by_cases he : epoch = 0
      · exact .inr fun hb => hz ⟨he, hb⟩
      · exact .inl he
    simp [hz, this]

/-- C128: no barrier appears before the end, and a step that raises does not pass it (the other processes of the group wait for it in vain). -/
theorem C128_barrier (ops : Ops F ι) (monitors : List String) (dist : Bool) (epoch batchIdx : Nat) (batch : List (Sample ι V C)) (f : F) :
    let r := distTrainingStep ops monitors dist epoch batchIdx batch f
    (Ev.barrier ∈ r.2.1 ↔ r.2.2 = .ok ()) ∧ (r.2.2 = .ok () → ∃ evs, r.2.1 = evs ++ [.barrier] ∧ Ev.barrier ∉ evs) := by
  have hlog : ∀ (sync : String → Bool) (l : List (String × LogVal V C)), Ev.barrier ∉ (logAll sync l).1 := by
    intro sync l
    induction l with
    | nil => simp [logAll]
    | cons kv rest ih =>
      obtain ⟨k, v⟩ := kv
      simp only [logAll]
      split
      · simp
      · rename_i ev hev
        simp only [List.mem_cons, not_or]
        refine ⟨?_, ih⟩
        rintro rfl
        revert hev
        unfold logOne
        split <;> simp
  have hup : ∀ n f, Ev.barrier ∉ (updates (V := V) (C := C) ops n f).2.1 := by
    intro n
    induction n with
    | zero => intro f; simp [updates]
    | succ n ih =>
      intro f
      simp only [updates]
      split
      · simp
      · simpa using ih _
  have hone : ∀ sync u l (s : Sample ι V C) f, Ev.barrier ∉ (trainOne ops sync u l s f).2.1 := by
    intro sync u l s f
    unfold trainOne
    split
    · simp
    · rename_i f1 _
      dsimp only
      have h2 : Ev.barrier ∉ (if u = true then updates (V := V) (C := C) ops s.observations.length f1 else (f1, [], .ok ())).2.1 := by
        cases u
        · simp
        · simpa using hup _ _
      split
      · rename_i hh; rw [hh] at h2; simpa using h2
      · rename_i hh; rw [hh] at h2
        cases l
        · simpa using h2
        · simp only [if_true, List.cons_append, List.mem_cons, reduceCtorEq, List.mem_append, false_or, not_or]
          exact ⟨h2, hlog _ _⟩
  have hloop : ∀ sync u (batch : List (Sample ι V C)) idx f, Ev.barrier ∉ (distLoop ops sync u idx batch f).2.1 := by
    intro sync u batch
    induction batch with
    | nil => intro idx f; simp [distLoop]
    | cons s rest ih =>
      intro idx f
      simp only [distLoop]
      have := hone sync u (idx == 0) s f
      split
      · rename_i hh; rw [hh] at this; exact this
      · rename_i hh; rw [hh] at this
        simp only [List.mem_append, not_or]
        exact ⟨this, ih _ _⟩
  intro r
  have := hloop (fun k => decide (k ∈ monitors) && dist) (decide (epoch ≠ 0 ∨ batchIdx ≠ 0)) batch 0 f
  show (Ev.barrier ∈ (distTrainingStep ops monitors dist epoch batchIdx batch f).2.1 ↔ _) ∧ ((distTrainingStep ops monitors dist epoch batchIdx batch f).2.2 = _ → _)
  have hr : r = distTrainingStep ops monitors dist epoch batchIdx batch f := rfl
  rw [hr]
  unfold distTrainingStep
  split
  · rename_i hh; rw [hh] at this; simp only [reduceCtorEq, iff_false, false_implies, and_true]; exact this
  · rename_i hh; rw [hh] at this; simp only [List.mem_append, List.mem_singleton, or_true, true_and]; exact fun _ => ⟨_, rfl, this⟩

example : (distTrainingStep ⟨fun f _ => (f + 1, .ok ()), fun f => (f + 10, .ok ())⟩ ["total_reward", ""] true 0 1
    [(⟨[7, 8], [[("total_reward", .plain 3), ("x", .plain 4)]]⟩ : Sample Nat Nat Nat), ⟨[9], [[("x", .plain 4)]]⟩] 0) =
    (32, [.store, .update, .update, .log "total_reward" (.plain 3) true, .log "x" (.plain 4) false, .store, .update, .barrier], .ok ()) := by rfl
example : (distTrainingStep ⟨fun f _ => (f + 1, .ok ()), fun f => (f + 10, .ok ())⟩ ["total_reward", ""] true 0 0
    [(⟨[7, 8], []⟩ : Sample Nat Nat Nat)] 0) = (1, [.store, .barrier], .ok ()) := by rfl

/-! ### C129: log entries -/

/-- C129 in full: every log entry is either handed to its function or logged. -/
def C129_full : Prop :=
  ∀ (sync : String → Bool) (l : List (String × LogVal Nat Nat)), logAll sync l = (l.map (Spec.logged sync), .ok ())

/-- C129 does not hold: a tuple with fewer than two parts raises `IndexError`, and the entries after it are lost. -/
theorem C129_violated_short (sync : String → Bool) (k : String) (x : List (LogItem V C)) (hx : x.length < 2) (l rest : List (String × LogVal V C))
    (hl : (logAll sync l).2 = .ok ()) : logAll sync (l ++ (k, .tuple x) :: rest) = (l.map (Spec.logged sync), .error .index) := by
  induction l with
  | nil =>
    match x, hx with
    | [], _ => rfl
    | [y], _ => rfl
  | cons kv l ih =>
    obtain ⟨k', v⟩ := kv
    simp only [List.cons_append]
    have h0 : logAll sync ((k', v) :: l) = ((logAll sync ((k', v) :: l)).1, .ok ()) := Prod.ext rfl hl
    have h1 := logAll_ok h0
    simp only [logAll] at hl h1 ⊢
    split at hl
    · simp at hl
    · rename_i ev hev
      simp only [hev, List.map_cons] at h1
      rw [ih hl]
      have : ev = Spec.logged sync (k', v) := by injection h1
      rw [this, List.map_cons]

theorem C129_violated : ¬ C129_full := by
  intro h
  have := h (fun _ => false) [("a", .tuple [.value 1])]
  revert this
  decide

/-- C129, what holds: if no tuple has fewer than two parts, all entries are handled, in order. Missing: shorter tuples. -/
theorem C129_handled_partial (sync : String → Bool) (l : List (String × LogVal V C)) (hl : ∀ e ∈ l, ∀ x, e.2 = .tuple x → 2 ≤ x.length) :
    logAll sync l = (l.map (Spec.logged sync), .ok ()) := by
  induction l with
  | nil => rfl
  | cons kv l ih =>
    obtain ⟨k, v⟩ := kv
    have ih := ih fun e he => hl e (by simp [he])
    have hv := hl (k, v) (by simp)
    simp only [logAll]
    match v, hv with
    | .plain v, _ => simp [logOne, ih, Spec.logged]
    | .tuple [], hv => exact absurd (hv _ rfl) (by simp)
    | .tuple [_], hv => exact absurd (hv _ rfl) (by simp)
    | .tuple (x :: .callable c :: _), _ => simp [logOne, ih, Spec.logged]
    | .tuple (x :: .value y :: _), _ => simp [logOne, ih, Spec.logged]

example : logAll (fun _ => false) [("a", (.plain 1 : LogVal Nat Nat)), ("v", .tuple [.value 3, .callable 7])] =
    ([.log "a" (.plain 1) false, .call 7 "v" (.value 3)], .ok ()) := by decide

end Machin.Auto
