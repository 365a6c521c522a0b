import Verif.Auto.Lemmas
import Verif.Trans.Model

/-! # Properties C121-C126: the gym datasets -/

namespace Machin.Auto

open Spec

variable {F W α I P : Type}

/-! ### A small environment for the examples: it counts to `stop`, rewards every step with what was given, and cannot be given 9. -/

def exEnv (stop : Nat) : Env Nat Nat Nat Nat where
  reset := fun _ => .ok (⟨[2], [0, 0]⟩, 0)
  step := fun w a =>
    match a with
    | .item 9 => .error (.other 1)
    | .item a => .ok (⟨⟨[2], [w + 1, a]⟩, (a : Rat), w + 1 == stop, w⟩, w + 1)
    | .array _ => .error .type
  render := fun w => w

/-- An actor critic policy whose action is 3 plus the number of calls. -/
def exPolicy : Policy Nat Nat where
  act := fun n _ => .ok (.tuple [⟨[1, 1], [3 + n]⟩, ⟨[1, 1], [0]⟩], n + 1)
  actDiscreteWithNoise := fun _ _ => .error .attribute
  actWithNoise := fun _ _ => .error .attribute
  manualSync := fun n => .ok n

/-! ### C121: what is read is one complete episode -/

/-- C121: an item read from a dataset (of either kind) is an episode that was played in the environment from its reset state: its transitions
are the steps played, in order, each with the action that was given to the environment and the reward that came back; the logs are the
information of every step, then possibly the video, then the sum of the rewards; and exactly one episode is counted. -/
theorem C121_played (choose : Choose F α) (p : Policy F α) (env : Env W α I P) (fuel : Nat) (d d' : Dataset F W) (r : Result α I P)
    (h : d.next choose p env fuel = some (d', .ok r)) :
    ∃ obs w f f' steps, env.reset d.world = .ok (obs, w) ∧ d.frame.manualSync p = .ok f ∧
      Played choose env (f.setSync false) w (toState obs) steps f' d'.world ∧
      r.observations = steps.map (·.obs) ∧
      (∃ video, r.logs = steps.map (fun s => Log.info s.info) ++ video ++ [.totalReward (sumRewards (steps.map (·.obs.reward)))] ∧
        ∀ l ∈ video, ∃ v, l = .video v) ∧
      d'.counter = d.counter + 1 ∧ d'.renderEvery = d.renderEvery := by
  unfold Dataset.next at h
  split at h
  · simp at h
  rename_i obs w hreset
  split at h
  · simp at h
  rename_i f hsync
  dsimp only at h
  split at h
  · simp at h
  · simp at h
  rename_i l hrun
  obtain ⟨-, steps, hp, -, htot, hrend, hobs, hlogs⟩ := run_spec hrun
  simp only [Option.some.injEq, Prod.mk.injEq, Except.ok.injEq] at h
  obtain ⟨rfl, rfl⟩ := h
  refine ⟨obs, w, f, l.frame, steps, hreset, hsync, hp, by simpa using hobs, ?_, rfl, rfl⟩
  simp only [List.nil_append] at hlogs
  rw [hlogs, htot, Rat.zero_add]
  by_cases hv : l.rendering.length > 0
  · exact ⟨[.video l.rendering], by simp [hv], fun l' hl => ⟨_, List.mem_singleton.1 hl⟩⟩
  · exact ⟨[], by simp [hv], by simp⟩

/-- C121, as seen in the result: there is at least one transition, the first one starts in the reset state, every other one starts where its
predecessor ended, and the last transition is the only terminal one. -/
theorem C121_connected (choose : Choose F α) (p : Policy F α) (env : Env W α I P) (fuel : Nat) (d d' : Dataset F W) (r : Result α I P)
    (h : d.next choose p env fuel = some (d', .ok r)) :
    (∃ obs w o, env.reset d.world = .ok (obs, w) ∧ r.observations[0]? = some o ∧ o.state = ⟨[1, obs.data.length], obs.data⟩) ∧
    (∀ k o o', r.observations[k]? = some o → r.observations[k + 1]? = some o' → o.nextState = o'.state) ∧
    (∀ k o, r.observations[k]? = some o → (o.terminal = true ↔ k + 1 = r.observations.length)) := by
  obtain ⟨obs, w, f, f', steps, hreset, -, hp, hobs, -, -⟩ := C121_played choose p env fuel d d' r h
  obtain ⟨⟨x, hx, hs, -⟩, hchain, hterm⟩ := played_shape hp
  have hget : ∀ k, r.observations[k]? = (steps[k]?).map (fun s : Step W α I => s.obs) := fun k => by rw [hobs, List.getElem?_map]
  refine ⟨⟨obs, w, x.obs, hreset, by rw [hget, hx]; rfl, hs⟩, ?_, ?_⟩
  · intro k o o' ho ho'
    rw [hget, Option.map_eq_some_iff] at ho ho'
    obtain ⟨x, hx, rfl⟩ := ho
    obtain ⟨y, hy, rfl⟩ := ho'
    exact hchain k x y hx hy
  · intro k o ho
    rw [hget, Option.map_eq_some_iff] at ho
    obtain ⟨x, hx, rfl⟩ := ho
    rw [hterm k x hx, hobs, List.length_map]

/-- C121, the other direction: every finite episode of the environment is read. -/
theorem C121_read (choose : Choose F α) (p : Policy F α) (env : Env W α I P) (d : Dataset F W) (hn : d.renderEvery ≠ 0)
    (obs : Tensor α) (w w' : W) (f f' : Frame F) (steps : List (Step W α I)) (hreset : env.reset d.world = .ok (obs, w))
    (hsync : d.frame.manualSync p = .ok f) (hp : Played choose env (f.setSync false) w (toState obs) steps f' w') (fuel : Nat)
    (hfuel : steps.length ≤ fuel) : ∃ d' r, d.next choose p env fuel = some (d', .ok r) := by
  obtain ⟨l, hl⟩ := run_of_played (counter := d.counter) hn hp fuel 0 [] ⟨[], []⟩ hfuel
  unfold Dataset.next
  rw [hreset, hsync]
  dsimp only
  rw [hl]
  exact ⟨_, _, rfl⟩

/-- A dataset with three steps per episode: the second item is not rendered. -/
example : (⟨⟨.a2c, none, 0⟩, 0, 1, 2⟩ : Dataset Nat Nat).next (chooseDisc exPolicy) exPolicy (exEnv 3) 10 =
    some (⟨⟨.a2c, none, 3⟩, 3, 2, 2⟩, .ok ⟨[⟨⟨[1, 2], [0, 0]⟩, ⟨[1, 1], [3]⟩, ⟨[1, 2], [1, 3]⟩, 3, false⟩,
      ⟨⟨[1, 2], [1, 3]⟩, ⟨[1, 1], [4]⟩, ⟨[1, 2], [2, 4]⟩, 4, false⟩, ⟨⟨[1, 2], [2, 4]⟩, ⟨[1, 1], [5]⟩, ⟨[1, 2], [3, 5]⟩, 5, true⟩],
      [.info 0, .info 1, .info 2, .totalReward 12]⟩) := by decide +kernel

/-! ### C122: rendering -/

/-- C122: an item contains a video exactly if the number of episodes read before is a multiple of `render_every_episode`, and the video has
one picture for every step, taken before the step. -/
theorem C122_rendered (choose : Choose F α) (p : Policy F α) (env : Env W α I P) (fuel : Nat) (d d' : Dataset F W) (r : Result α I P)
    (h : d.next choose p env fuel = some (d', .ok r)) :
    ∃ obs w f f' steps, env.reset d.world = .ok (obs, w) ∧ Played choose env f w (toState obs) steps f' d'.world ∧
      r.logs = steps.map (fun s => Log.info s.info) ++
        (if d.renderEvery ∣ (d.counter : Int) then [.video (steps.map fun s => env.render s.world)] else []) ++
        [.totalReward (sumRewards (steps.map (·.obs.reward)))] := by
  unfold Dataset.next at h
  split at h
  · simp at h
  rename_i obs w hreset
  split at h
  · simp at h
  rename_i f hsync
  dsimp only at h
  split at h
  · simp at h
  · simp at h
  rename_i l hrun
  obtain ⟨-, steps, hp, -, htot, hrend, hobs, hlogs⟩ := run_spec hrun
  simp only [Option.some.injEq, Prod.mk.injEq, Except.ok.injEq] at h
  obtain ⟨rfl, rfl⟩ := h
  refine ⟨obs, w, _, _, steps, hreset, hp, ?_⟩
  simp only [List.nil_append, pictures] at hlogs hrend
  rw [hlogs, htot, Rat.zero_add, hrend]
  obtain ⟨⟨x, hx, -⟩, -⟩ := played_shape hp
  have hne : 0 < (steps.map fun s => env.render s.world).length := by
    rw [List.length_map]
    rcases Nat.eq_zero_or_pos steps.length with h0 | h0
    · rw [List.length_eq_zero_iff] at h0; rw [h0] at hx; simp at hx
    · exact h0
  by_cases hd : (d.counter : Int) % d.renderEvery = 0
  · have hd' : d.renderEvery ∣ (d.counter : Int) := Int.dvd_of_emod_eq_zero hd
    rw [if_pos hd, if_pos hd', if_pos hne]
  · have hd' : ¬ d.renderEvery ∣ (d.counter : Int) := fun h => hd (Int.emod_eq_zero_of_dvd h)
    rw [if_neg hd, if_neg hd']
    simp

/-- Items read one after the other (each within some number of steps). -/
inductive Reads (choose : Choose F α) (p : Policy F α) (env : Env W α I P) : Dataset F W → List (Result α I P) → Prop
  | nil (d : Dataset F W) : Reads choose p env d []
  | cons {d d' : Dataset F W} {r : Result α I P} {rs : List (Result α I P)} (fuel : Nat) (h : d.next choose p env fuel = some (d', .ok r))
      (hr : Reads choose p env d' rs) : Reads choose p env d (r :: rs)

/-- C122 for all items of a dataset that has just been made: item `k`, counted from 0, contains a video if and only if `render_every_episode`
divides `k`. In particular the first item always does. -/
theorem C122_every (choose : Choose F α) (p : Policy F α) (env : Env W α I P) (f : Frame F) (w : W) (n : Int) (rs : List (Result α I P))
    (h : Reads choose p env ⟨f, w, 0, n⟩ rs) (k : Nat) (r : Result α I P) (hk : rs[k]? = some r) :
    (∃ v, Log.video v ∈ r.logs) ↔ n ∣ (k : Int) := by
  have key : ∀ (d : Dataset F W) (rs : List (Result α I P)), Reads choose p env d rs → ∀ (k : Nat) (r : Result α I P), rs[k]? = some r →
      ((∃ v, Log.video v ∈ r.logs) ↔ d.renderEvery ∣ ((d.counter + k : Nat) : Int)) := by
    intro d rs h
    induction h with
    | nil d => intro k r hk; simp at hk
    | @cons d d' r' rs fuel hnext _ ih =>
      intro k r hk
      cases k with
      | zero =>
        simp only [List.getElem?_cons_zero, Option.some.injEq] at hk
        subst hk
        obtain ⟨obs, w, f, f', steps, -, -, hlogs⟩ := C122_rendered choose p env fuel d d' r' hnext
        rw [hlogs, Nat.add_zero]
        by_cases hd : d.renderEvery ∣ (d.counter : Int) <;> simp [hd]
      | succ k =>
        obtain ⟨_, _, _, _, _, -, -, -, -, -, hc, he⟩ := C121_played choose p env fuel d d' r' hnext
        rw [ih k r (by simpa using hk), he, hc, Nat.add_right_comm, Nat.add_assoc]
  have := key _ _ h k r hk
  simpa using this

/-- C122, the number 0 does not switch rendering off: no item can be read. -/
theorem C122_zero (choose : Choose F α) (p : Policy F α) (env : Env W α I P) (fuel : Nat) (d : Dataset F W) (h0 : d.renderEvery = 0)
    (obs : Tensor α) (w : W) (f : Frame F) (hreset : env.reset d.world = .ok (obs, w)) (hsync : d.frame.manualSync p = .ok f) :
    d.next choose p env (fuel + 1) = some ({ d with frame := f.setSync false }, .error .zeroDiv) := by
  unfold Dataset.next
  rw [hreset, hsync]
  simp [Loop.run, Loop.round, h0]

example : ((⟨⟨.a2c, none, 0⟩, 0, 0, 2⟩ : Dataset Nat Nat).next (chooseDisc exPolicy) exPolicy (exEnv 2) 10).map (fun x => x.2.map (·.logs)) =
    some (.ok [.info 0, .info 1, .video [0, 1], .totalReward 7]) := by decide +kernel
example : ((⟨⟨.a2c, none, 0⟩, 0, 0, 0⟩ : Dataset Nat Nat).next (chooseDisc exPolicy) exPolicy (exEnv 2) 10).map (·.2) =
    some (.error .zeroDiv) := by decide +kernel

/-! ### C123: synchronisation is switched off only for the episode -/

/-- A way of acting leaves the synchronisation setting alone. -/
def KeepsSync (choose : Choose F α) : Prop := ∀ f s x f', choose f s = .ok (x, f') → f'.sync = f.sync ∧ f'.kind = f.kind

theorem keepsSync_disc (p : Policy F α) : KeepsSync (chooseDisc p) := by
  intro f s x f' h
  unfold chooseDisc at h
  repeat' split at h
  all_goals (try simp only [bind, Except.bind] at h)
  all_goals (repeat' split at h)
  all_goals first
    | contradiction
    | (simp only [Except.ok.injEq, Prod.mk.injEq] at h; obtain ⟨-, rfl⟩ := h; exact ⟨rfl, rfl⟩)

theorem keepsSync_cont (p : Policy F α) : KeepsSync (chooseCont p) := by
  intro f s x f' h
  unfold chooseCont at h
  repeat' split at h
  all_goals (try simp only [bind, Except.bind] at h)
  all_goals (repeat' split at h)
  all_goals first
    | contradiction
    | (simp only [Except.ok.injEq, Prod.mk.injEq] at h; obtain ⟨-, rfl⟩ := h; exact ⟨rfl, rfl⟩)

theorem played_sync {choose : Choose F α} (hk : KeepsSync choose) {env : Env W α I P} {f f' : Frame F} {w w' : W} {s : Tensor α}
    {steps : List (Step W α I)} (h : Played choose env f w s steps f' w') : f'.sync = f.sync ∧ f'.kind = f.kind := by
  induction h with
  | last hc => exact hk _ _ _ _ hc
  | more hc _ _ _ ih => exact ⟨ih.1.trans (hk _ _ _ _ hc).1, ih.2.trans (hk _ _ _ _ hc).2⟩

/-- C123 in full: whether reading an item succeeds or fails, the algorithm synchronises afterwards as it did before. -/
def C123_full : Prop :=
  ∀ (choose : Choose Nat Nat) (p : Policy Nat Nat) (env : Env Nat Nat Nat Nat) (fuel : Nat) (d d' : Dataset Nat Nat)
    (r : Except Err (Result Nat Nat Nat)), KeepsSync choose → d.next choose p env fuel = some (d', r) → d'.frame.sync = d.frame.sync

/-- C123 does not hold: if the algorithm or the environment raises during an episode, the algorithm never synchronises again by itself; every
algorithm, environment and step is concerned. -/
theorem C123_violated_exception (choose : Choose F α) (p : Policy F α) (env : Env W α I P) (fuel : Nat) (d d' : Dataset F W)
    (e : Err) (obs : Tensor α) (w : W) (f : Frame F) (hreset : env.reset d.world = .ok (obs, w)) (hsync : d.frame.manualSync p = .ok f)
    (h : d.next choose p env fuel = some (d', .error e)) (b : Bool) (hb : d.frame.sync = some b) :
    d'.frame.sync = some false ∧ d'.counter = d.counter := by
  have hf : f.sync = some b := by
    unfold Frame.manualSync at hsync
    rw [hb] at hsync
    dsimp only at hsync
    split at hsync
    · simp at hsync
    · simp only [Except.ok.injEq] at hsync; rw [← hsync]
  unfold Dataset.next at h
  rw [hreset, hsync] at h
  dsimp only at h
  split at h
  · simp at h
  · simp only [Option.some.injEq, Prod.mk.injEq] at h
    obtain ⟨rfl, -⟩ := h
    simp [Frame.setSync, hf]
  · simp at h

theorem C123_violated : ¬ C123_full := by
  intro h
  have := h (chooseDisc { exPolicy with act := fun n _ => .ok (.tuple [⟨[1, 1], [8 + n]⟩], n + 1) })
    { exPolicy with act := fun n _ => .ok (.tuple [⟨[1, 1], [8 + n]⟩], n + 1) } (exEnv 3) 10
    ⟨⟨.a3c, some true, 0⟩, 0, 0, 5⟩ ⟨⟨.a3c, some false, 0⟩, 0, 0, 5⟩ (.error (.other 1)) (keepsSync_disc _) (by decide +kernel)
  simp at this

/-- C123, what holds: after an item has been read the algorithm synchronises (if it can), whatever the setting was before, and the kind of the
algorithm is the same. Missing: items that fail, and an algorithm whose synchronisation the user had switched off. -/
theorem C123_synced_partial (choose : Choose F α) (hk : KeepsSync choose) (p : Policy F α) (env : Env W α I P) (fuel : Nat)
    (d d' : Dataset F W) (r : Result α I P) (h : d.next choose p env fuel = some (d', .ok r)) :
    d'.frame.sync = d.frame.sync.map (fun _ => true) ∧ d'.frame.kind = d.frame.kind := by
  unfold Dataset.next at h
  split at h
  · simp at h
  rename_i obs w hreset
  split at h
  · simp at h
  rename_i f hsync
  dsimp only at h
  split at h
  · simp at h
  · simp at h
  rename_i l hrun
  obtain ⟨-, steps, hp, -⟩ := run_spec hrun
  have hs := played_sync hk hp
  simp only [Option.some.injEq, Prod.mk.injEq, Except.ok.injEq] at h
  obtain ⟨rfl, rfl⟩ := h
  have hf : f.sync = d.frame.sync ∧ f.kind = d.frame.kind := by
    unfold Frame.manualSync at hsync
    split at hsync
    · simp only [Except.ok.injEq] at hsync; rw [← hsync]; exact ⟨rfl, rfl⟩
    · split at hsync
      · simp at hsync
      · simp only [Except.ok.injEq] at hsync; rw [← hsync]; exact ⟨rfl, rfl⟩
  constructor
  · show l.frame.sync.map _ = _
    rw [hs.1]
    show (f.sync.map _).map _ = _
    rw [hf.1]
    cases d.frame.sync <;> rfl
  · exact hs.2.trans hf.2

/-- While an episode is played synchronisation is off (all steps start from `f.setSync false`), so the networks are those of the start. -/
theorem C123_off_partial (f : Frame F) (b : Bool) (h : f.sync = some b) : (f.setSync false).sync = some false := by
  simp [Frame.setSync, h]

example : ((⟨⟨.a3c, some false, 0⟩, 0, 0, 5⟩ : Dataset Nat Nat).next (chooseDisc exPolicy) exPolicy (exEnv 2) 10).map (·.1.frame.sync) =
    some (some true) := by decide +kernel

/-! ### C124: which algorithms can be used -/

/-- C124 in full: every algorithm that is listed as available can act in at least one kind of dataset. -/
def C124_full : Prop :=
  ∀ k ∈ availableAlgorithms, ∃ (p : Policy Nat Nat) (f : Frame Nat) (s : Tensor Nat), f.kind = k ∧
    ((∃ x, chooseDisc p f s = .ok x) ∨ ∃ x, chooseCont p f s = .ok x)

/-- C124 does not hold for TRPO and MADDPG: whatever the policy and the state, both datasets refuse them. -/
theorem C124_violated_refused (p : Policy F α) (f : Frame F) (s : Tensor α) (h : f.kind = .trpo ∨ f.kind = .maddpg) :
    chooseDisc p f s = .error .runtime ∧ chooseCont p f s = .error .runtime := by
  rcases h with h | h <;> simp [chooseDisc, chooseCont, h, inActList, inQList, inDetList, inArsList]

theorem C124_violated : ¬ C124_full := by
  intro h
  obtain ⟨p, f, s, hk, h⟩ := h .trpo (by decide)
  have := C124_violated_refused p f s (.inl hk)
  rcases h with ⟨x, hx⟩ | ⟨x, hx⟩
  · rw [this.1] at hx; cases hx
  · rw [this.2] at hx; cases hx

/-- The list of available algorithms is the list of all algorithms. -/
theorem C124_available_partial (k : Algo) : k ∈ availableAlgorithms := by cases k <;> decide

/-- C124 for discrete actions, what holds: an actor critic algorithm stores the first output of its actor, a value based one the chosen index,
a deterministic one the action probabilities, and the environment is given the chosen index as a number. Missing: TRPO and MADDPG. -/
theorem C124_disc_partial (p : Policy F α) (f : Frame F) (s : Tensor α) (g : F) (action : Tensor α) (a : α) (ha : action.data = [a]) :
    (∀ rest, f.kind ∈ [.a2c, .ppo, .sac, .gail, .a3c, .impala] → p.act f.inner s = .ok (.tuple (action :: rest), g) →
      chooseDisc p f s = .ok ((.item a, action), { f with inner := g })) ∧
    (f.kind ∈ [.dqn, .dqnPer, .dqnApex, .rainbow] → p.actDiscreteWithNoise f.inner s = .ok (.tensor action, g) →
      chooseDisc p f s = .ok ((.item a, action), { f with inner := g })) ∧
    (∀ probs, f.kind ∈ [.ddpg, .ddpgPer, .hddpg, .td3, .ddpgApex] → p.actDiscreteWithNoise f.inner s = .ok (.tuple [action, probs], g) →
      chooseDisc p f s = .ok ((.item a, probs), { f with inner := g })) ∧
    (f.kind = .ars → p.act f.inner s = .ok (.tensor action, g) →
      chooseDisc p f s = .ok ((.item a, action), { f with inner := g })) := by
  refine ⟨?_, ?_, ?_, ?_⟩
  · intro rest hk h
    simp only [List.mem_cons, List.not_mem_nil, or_false] at hk
    rcases hk with hk | hk | hk | hk | hk | hk <;>
      simp [chooseDisc, hk, inActList, h, bind, Except.bind, Ret.item0, Tensor.item, ha]
  · intro hk h
    simp only [List.mem_cons, List.not_mem_nil, or_false] at hk
    rcases hk with hk | hk | hk | hk <;>
      simp [chooseDisc, hk, inActList, inQList, h, bind, Except.bind, Ret.asTensor, Tensor.item, ha]
  · intro probs hk h
    simp only [List.mem_cons, List.not_mem_nil, or_false] at hk
    rcases hk with hk | hk | hk | hk | hk <;>
      simp [chooseDisc, hk, inActList, inQList, inDetList, h, bind, Except.bind, Ret.unpack2, Tensor.item, ha]
  · intro hk h
    simp [chooseDisc, hk, inActList, inQList, inDetList, inArsList, h, bind, Except.bind, Ret.asTensor, Tensor.item, ha]

/-- C124 for continuous actions: an actor critic algorithm stores the first output of its actor and gives it to the environment; the value based
algorithms, which have no continuous actions, are refused. -/
theorem C124_cont_partial (p : Policy F α) (f : Frame F) (s : Tensor α) (g : F) (action : Tensor α) :
    (∀ rest, f.kind ∈ [.a2c, .ppo, .sac, .gail, .a3c, .impala] → p.act f.inner s = .ok (.tuple (action :: rest), g) →
      chooseCont p f s = .ok ((.array action, action), { f with inner := g })) ∧
    (f.kind = .ars → p.act f.inner s = .ok (.tensor action, g) →
      chooseCont p f s = .ok ((.array action, action), { f with inner := g })) ∧
    (f.kind ∈ [.dqn, .dqnPer, .dqnApex, .rainbow] → chooseCont p f s = .error .runtime) := by
  refine ⟨?_, ?_, ?_⟩
  · intro rest hk h
    simp only [List.mem_cons, List.not_mem_nil, or_false] at hk
    rcases hk with hk | hk | hk | hk | hk | hk <;>
      simp [chooseCont, hk, inActList, h, bind, Except.bind, Ret.item0]
  · intro hk h
    simp [chooseCont, hk, inActList, inDetList, inArsList, h, bind, Except.bind, Ret.asTensor]
  · intro hk
    simp only [List.mem_cons, List.not_mem_nil, or_false] at hk
    rcases hk with hk | hk | hk | hk <;> simp [chooseCont, hk, inActList, inDetList, inArsList]

example : chooseDisc exPolicy ⟨.a2c, none, 4⟩ ⟨[1, 2], [0, 0]⟩ = .ok ((.item 7, ⟨[1, 1], [7]⟩), ⟨.a2c, none, 5⟩) := by decide
example : chooseDisc exPolicy ⟨.trpo, none, 4⟩ ⟨[1, 2], [0, 0]⟩ = .error .runtime := by decide

/-! ### C125: continuous actions have the right shapes -/

/-- The first output of an acting method. -/
def firstOutput : Ret α → Option (Tensor α)
  | .tensor t => some t
  | .tuple [] => none
  | .tuple (t :: _) => some t

/-- C125 in full: if the actor produces an action of shape `[1, d]`, the environment (whose action space has shape `[d]`) is given an array of shape
`[d]`, and what is stored is the batch of shape `[1, d]`. -/
def C125_full : Prop :=
  ∀ (p : Policy Nat Nat) (f g : Frame Nat) (s action stored a : Tensor Nat) (d : Nat),
    (∀ r g', p.act f.inner s = .ok (r, g') → firstOutput r = some action) →
    (∀ r g', p.actWithNoise f.inner s = .ok (r, g') → firstOutput r = some action) →
    action.shape = [1, d] → chooseCont p f s = .ok ((.array a, stored), g) → a.shape = [d] ∧ stored.shape = [1, d]

/-- C125 does not hold for DDPG, its prioritized and distributed variants, HDDPG and TD3: `act_with_noise` returns the action itself if the actor
has no other outputs, and `[0]` then takes its first row. What is stored has no batch dimension. -/
theorem C125_violated_stored (p : Policy F α) (f : Frame F) (s action : Tensor α) (g : F) (d : Nat)
    (hk : f.kind ∈ [.ddpg, .ddpgPer, .hddpg, .td3, .ddpgApex]) (h : p.actWithNoise f.inner s = .ok (.tensor action, g))
    (hshape : action.shape = [1, d]) :
    chooseCont p f s = .ok ((.array ⟨[d], action.data.take d⟩, ⟨[d], action.data.take d⟩), { f with inner := g }) := by
  simp only [List.mem_cons, List.not_mem_nil, or_false] at hk
  rcases hk with hk | hk | hk | hk | hk <;>
    simp [chooseCont, hk, inActList, inDetList, h, bind, Except.bind, Ret.item0, Tensor.row0, hshape]

/-- Such a transition is refused when the episode is stored, unless the action has dimension 1. -/
theorem C125_violated_refused (n d l1 l2 l3 l4 l5 : Nat) (hd : d ≠ 1) :
    Trans.Transition.new (.dict [("state", .tensor [1, n] l1)]) (.dict [("action", .tensor [d] l2)])
      (.dict [("state", .tensor [1, n] l3)]) (.val (.scalar l4)) (.val (.scalar l5)) true [] = .error .value := by
  have h1 : ¬ (1 = d) := fun h => hd h.symm
  simp [Trans.Transition.new, Trans.check, Trans.checkBase, Trans.checkMajor, Trans.checkDict, PyDict.get?, h1]

/-- For the actor critic algorithms it is the environment that is given the wrong shape: the whole batch of one action. -/
theorem C125_violated_given (p : Policy F α) (f : Frame F) (s action : Tensor α) (g : F) (rest : List (Tensor α)) (d : Nat)
    (hk : f.kind ∈ [.a2c, .ppo, .sac, .gail, .a3c, .impala]) (h : p.act f.inner s = .ok (.tuple (action :: rest), g))
    (hshape : action.shape = [1, d]) (a stored : Tensor α) (g' : Frame F) (hc : chooseCont p f s = .ok ((.array a, stored), g')) :
    a.shape = [1, d] := by
  rw [(C124_cont_partial p f s g action).1 rest hk h] at hc
  simp only [Except.ok.injEq, Prod.mk.injEq, EnvAct.array.injEq] at hc
  rw [← hc.1.1, hshape]

theorem C125_violated : ¬ C125_full := by
  intro h
  have := h { exPolicy with actWithNoise := fun n _ => .ok (.tensor ⟨[1, 2], [5, 6]⟩, n), act := fun _ _ => .error .type }
    ⟨.ddpg, none, 0⟩ ⟨.ddpg, none, 0⟩ ⟨[1, 1], [0]⟩ ⟨[1, 2], [5, 6]⟩ ⟨[2], [5, 6]⟩ ⟨[2], [5, 6]⟩ 2
    (by intro r g' h; cases h) (by intro r g' h; cases h; rfl) rfl (by decide)
  exact absurd this.2 (by decide)

/-- C125, what holds: whatever the algorithm, what is stored is what the environment was given; it is the batch `[1, d]` of the actor if the acting
method returns it first in a tuple. Missing: actors without further outputs, and the shape the environment is given. -/
theorem C125_same_partial (p : Policy F α) (f g : Frame F) (s a stored : Tensor α) (h : chooseCont p f s = .ok ((.array a, stored), g)) :
    stored = a := by
  unfold chooseCont at h
  repeat' split at h
  all_goals (try simp only [bind, Except.bind] at h)
  all_goals (repeat' split at h)
  all_goals first
    | contradiction
    | (simp only [Except.ok.injEq, Prod.mk.injEq, EnvAct.array.injEq] at h; obtain ⟨⟨rfl, rfl⟩, -⟩ := h; rfl)

theorem C125_tuple_partial (p : Policy F α) (f : Frame F) (s action : Tensor α) (g : F) (rest : List (Tensor α))
    (hk : f.kind ∈ [.ddpg, .ddpgPer, .hddpg, .td3, .ddpgApex]) (h : p.actWithNoise f.inner s = .ok (.tuple (action :: rest), g)) :
    chooseCont p f s = .ok ((.array action, action), { f with inner := g }) := by
  simp only [List.mem_cons, List.not_mem_nil, or_false] at hk
  rcases hk with hk | hk | hk | hk | hk <;> simp [chooseCont, hk, inActList, inDetList, h, bind, Except.bind, Ret.item0]

/-! ### C126: datasets are made for supported environments, others are refused as unsupported -/

/-- C126 in full: a dataset of the right kind is made for a simple action space, and any other environment is refused with the documented
`ValueError`. -/
def C126_full : Prop :=
  ∀ (action observation : Space), observation ∈ [.box, .discrete, .multiBinary, .multiDiscrete] →
    creator action observation [[.f32]] =
      match action with
      | .discrete | .multiDiscrete => .ok (.disc, .f32)
      | .box | .multiBinary => .ok (.cont, .f32)
      | _ => .error .value

/-- C126 does not hold: `MultiDiscrete` and `MultiBinary` action spaces pass the tests of the creator and are then refused by an assertion of the
dataset that was chosen for them. -/
theorem C126_violated_assert (action observation : Space) (models : List (List DType)) (h : action = .multiDiscrete ∨ action = .multiBinary)
    (d : DType) (hd : determinePrecision models = .ok d) : creator action observation models = .error .assertion := by
  rcases h with rfl | rfl <;> simp [creator, isDiscreteSpace, isContinuousSpace, construct, hd]

theorem C126_violated : ¬ C126_full := by
  intro h
  have := h .multiDiscrete .box (by decide)
  revert this
  decide

/-- C126, what holds: the kind matches the action space, spaces made of others are refused. Missing: the two multiple spaces. -/
theorem C126_kind_partial (action observation : Space) (models : List (List DType)) (d : DType) (hd : determinePrecision models = .ok d) :
    (∀ k d', creator action observation models = .ok (k, d') ↔
      d' = d ∧ observation ∈ [.box, .discrete, .multiBinary, .multiDiscrete] ∧ (action = .discrete ∧ k = .disc ∨ action = .box ∧ k = .cont)) ∧
    (action = .dict ∨ action = .tuple → creator action observation models = .error .value) := by
  constructor
  · intro k d'
    cases action <;> cases observation <;> cases k <;>
      simp [creator, isDiscreteSpace, isContinuousSpace, construct, hd, isSimpleSpace, eq_comm]
  · rintro (rfl | rfl) <;> simp [creator, isDiscreteSpace, isContinuousSpace]

theorem eraseDups_ne (L : List DType) {a b : DType} {l : List DType} (h : L.eraseDups = a :: b :: l) : a ≠ b := by
  cases L with
  | nil => simp at h
  | cons x xs =>
    rw [List.eraseDups_cons] at h
    simp only [List.cons.injEq] at h
    obtain ⟨rfl, h⟩ := h
    have hb : b ∈ (xs.filter fun y => !y == x).eraseDups := by rw [h]; simp
    rw [List.mem_eraseDups, List.mem_filter] at hb
    rintro rfl
    simp at hb

/-- The precision is the one data type all parameters have; models without parameters and models of several data types are refused. -/
theorem C126_precision_partial (models : List (List DType)) :
    (∀ d, determinePrecision models = .ok d ↔ (∃ m ∈ models, d ∈ m) ∧ ∀ m ∈ models, ∀ x ∈ m, x = d) ∧
    (determinePrecision models = .error .index ↔ ∀ m ∈ models, m = []) := by
  have hmem : ∀ x, x ∈ models.flatten.eraseDups ↔ ∃ m ∈ models, x ∈ m := fun x => by rw [List.mem_eraseDups, List.mem_flatten]
  have hnd : ∀ a b l, models.flatten.eraseDups = a :: b :: l → a ≠ b := fun a b l h => eraseDups_ne _ h
  unfold determinePrecision
  generalize models.flatten.eraseDups = l at hmem hnd
  match l, hmem, hnd with
  | [], hmem, _ =>
    refine ⟨fun d => ?_, ?_⟩
    · simp only [List.length_nil, gt_iff_lt, Nat.not_lt_zero, if_false, reduceCtorEq, false_iff]
      rintro ⟨hd, -⟩
      exact absurd ((hmem d).2 hd) (by simp)
    · simp only [List.length_nil, gt_iff_lt, Nat.not_lt_zero, if_false, true_iff]
      intro m hm
      rw [List.eq_nil_iff_forall_not_mem]
      intro x hx
      exact absurd ((hmem x).2 ⟨m, hm, hx⟩) (by simp)
  | [a], hmem, _ =>
    have ha := (hmem a).1 (by simp)
    refine ⟨fun d => ?_, ?_⟩
    · simp only [List.length_singleton, gt_iff_lt, Nat.lt_irrefl, if_false, Except.ok.injEq]
      constructor
      · rintro rfl
        exact ⟨ha, fun m hm x hx => by simpa using (hmem x).2 ⟨m, hm, hx⟩⟩
      · rintro ⟨-, hall⟩
        obtain ⟨m, hm, hx⟩ := ha
        exact hall m hm a hx
    · simp only [List.length_singleton, gt_iff_lt, Nat.lt_irrefl, if_false, reduceCtorEq, false_iff]
      intro hall
      obtain ⟨m, hm, hx⟩ := ha
      rw [hall m hm] at hx
      simp at hx
  | a :: b :: l, hmem, hnd =>
    have hab : a ≠ b := hnd a b l rfl
    obtain ⟨m, hm, hx⟩ := (hmem a).1 (by simp)
    obtain ⟨m', hm', hx'⟩ := (hmem b).1 (by simp)
    refine ⟨fun d => ?_, ?_⟩
    · simp only [List.length_cons, gt_iff_lt, Nat.lt_add_left_iff_pos, Nat.zero_lt_succ, if_true, reduceCtorEq, false_iff]
      rintro ⟨-, hall⟩
      exact hab ((hall m hm a hx).trans (hall m' hm' b hx').symm)
    · simp only [List.length_cons, gt_iff_lt, Nat.lt_add_left_iff_pos, Nat.zero_lt_succ, if_true, Except.error.injEq, reduceCtorEq, false_iff]
      intro hall
      rw [hall m hm] at hx
      simp at hx

example : creator .box .box [[.f32, .f32], [.f32]] = .ok (.cont, .f32) := by decide
example : creator .multiDiscrete .box [[.f32]] = .error .assertion := by decide
example : determinePrecision [[.f32], [.f64]] = .error .runtime := by decide

end Machin.Auto
