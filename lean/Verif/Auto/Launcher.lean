import Verif.Replay.Model

/-!
# Model of the launchers

`Launcher` and `DistributedLauncher` (`machin/auto/launcher.py`): what they do with the items of a batch. The algorithm is given by its
`store_episode` and its `update`, which may change it and then raise. The second part models the replay buffer side of the on-policy
algorithms (`a2c.py`, `ppo.py`, `trpo.py`, `gail.py`), whose `update` clears the buffer at its end.
-/

namespace Machin.Auto

/-- A part of a logged tuple. -/
inductive LogItem (V C : Type)
  | value (v : V)
  | callable (c : C)
  deriving DecidableEq, Repr

/-- A logged value. -/
inductive LogVal (V C : Type)
  | plain (v : V)
  | tuple (l : List (LogItem V C))
  deriving DecidableEq, Repr

/-- An item of a batch (`DatasetResult`). -/
structure Sample (ι V C : Type) where
  observations : List ι
  logs : List (List (String × LogVal V C))
  deriving DecidableEq, Repr

/-- What a launcher does, in order. -/
inductive Ev (V C : Type)
  | store
  | update
  /-- `log_val[1](self, log_key, log_val[0])` -/
  | call (c : C) (key : String) (x : LogItem V C)
  /-- `self.log(log_key, log_val, prog_bar=True, sync_dist=sync)` -/
  | log (key : String) (v : LogVal V C) (sync : Bool)
  | barrier
  deriving DecidableEq, Repr

/-- One entry in `_log` (launcher.py:95-101, 223-240); `sync key` tells whether the value is reduced over the processes (never for `Launcher`). -/
def logOne {V C : Type} (sync : String → Bool) (key : String) : LogVal V C → Except Err (Ev V C)
  | .plain v => .ok (.log key (.plain v) (sync key))
  | .tuple [] => .error .index
  | .tuple [_] => .error .index
  | .tuple (x :: .callable c :: _) => .ok (.call c key x)
  | .tuple (x :: .value y :: l) => .ok (.log key (.tuple (x :: .value y :: l)) (sync key))

/-- The loops of `_log`. -/
def logAll {V C : Type} (sync : String → Bool) : List (String × LogVal V C) → List (Ev V C) × Except Err Unit
  | [] => ([], .ok ())
  | (k, v) :: rest =>
    match logOne sync k v with
    | .error e => ([], .error e)
    | .ok ev => let r := logAll sync rest; (ev :: r.1, r.2)

/-- The algorithm: `store_episode` and `update`. -/
structure Ops (F ι : Type) where
  store : F → List ι → F × Except Err Unit
  update : F → F × Except Err Unit

/-- `for _ in range(n): self.frame.update()`. -/
def updates {F ι V C : Type} (ops : Ops F ι) : Nat → F → F × List (Ev V C) × Except Err Unit
  | 0, f => (f, [], .ok ())
  | n + 1, f =>
    match ops.update f with
    | (f, .error e) => (f, [.update], .error e)
    | (f, .ok ()) => let r := updates ops n f; (r.1, .update :: r.2.1, r.2.2)

/-- One item of a batch (launcher.py:62-66, 153-166). -/
def trainOne {F ι V C : Type} (ops : Ops F ι) (sync : String → Bool) (doUpdate doLog : Bool) (s : Sample ι V C) (f : F) :
    F × List (Ev V C) × Except Err Unit :=
  match ops.store f s.observations with
  | (f, .error e) => (f, [.store], .error e)
  | (f, .ok ()) =>
    let r : F × List (Ev V C) × Except Err Unit := if doUpdate then updates ops s.observations.length f else (f, [], .ok ())
    match r with
    | (f, evs, .error e) => (f, .store :: evs, .error e)
    | (f, evs, .ok ()) =>
      if doLog then let l := logAll sync s.logs.flatten; (f, .store :: evs ++ l.1, l.2)
      else (f, .store :: evs, .ok ())

/-- `Launcher.training_step` (launcher.py:61-66). -/
def trainingStep {F ι V C : Type} (ops : Ops F ι) : List (Sample ι V C) → F → F × List (Ev V C) × Except Err Unit
  | [], f => (f, [], .ok ())
  | s :: rest, f =>
    match trainOne ops (fun _ => false) true true s f with
    | (f, evs, .error e) => (f, evs, .error e)
    | (f, evs, .ok ()) => let r := trainingStep ops rest f; (r.1, evs ++ r.2.1, r.2.2)

/-- The loop of `DistributedLauncher.training_step` (launcher.py:152-167). -/
def distLoop {F ι V C : Type} (ops : Ops F ι) (sync : String → Bool) (doUpdate : Bool) : Nat → List (Sample ι V C) → F →
    F × List (Ev V C) × Except Err Unit
  | _, [], f => (f, [], .ok ())
  | idx, s :: rest, f =>
    match trainOne ops sync doUpdate (idx == 0) s f with
    | (f, evs, .error e) => (f, evs, .error e)
    | (f, evs, .ok ()) => let r := distLoop ops sync doUpdate (idx + 1) rest f; (r.1, evs ++ r.2.1, r.2.2)

/-- `DistributedLauncher.training_step` (launcher.py:150-171). `monitors` are `_train_esm` and `_test_esm`, `dist` is
`dist.is_available() and dist.is_initialized()`. -/
def distTrainingStep {F ι V C : Type} (ops : Ops F ι) (monitors : List String) (dist : Bool) (epoch batchIdx : Nat) (batch : List (Sample ι V C))
    (f : F) : F × List (Ev V C) × Except Err Unit :=
  match distLoop ops (fun k => decide (k ∈ monitors) && dist) (decide (epoch ≠ 0 ∨ batchIdx ≠ 0)) 0 batch f with
  | (f, evs, .error e) => (f, evs, .error e)
  | (f, evs, .ok ()) => (f, evs ++ [.barrier], .ok ())

/-! ## On-policy algorithms -/

open Replay

/-- What an `update` samples before it clears the buffer: GAIL first samples `disc` batches for its discriminator (gail.py:273-288); then A2C, A3C
and PPO sample `actor_update_times` batches for the actor (a2c.py:347-355, ppo.py:117-125) and TRPO one batch of everything (trpo.py:193-200); then
`critic_update_times` batches for the critic. `batch` is `batch_size`. -/
structure OnPolicy (τ : Type) where
  buf : Buffer τ
  disc : Nat
  /-- `none` for TRPO -/
  actorTimes : Option Nat
  criticTimes : Nat
  batch : Nat
  /-- How many batches have been drawn (which numbers the random generator). -/
  drawn : Nat

/-- `batch_size, (...) = self.replay_buffer.sample_batch(..., sample_method="random_unique")`, `n` times: the result of an empty batch is `None`,
which cannot be unpacked. -/
def OnPolicy.sampleTimes {τ : Type} (rng : Nat → List Nat → Nat → List Nat) : Nat → OnPolicy τ → OnPolicy τ × Except Err Unit
  | 0, f => (f, .ok ())
  | n + 1, f =>
    let f' := { f with drawn := f.drawn + 1 }
    match f.buf.sampleRandomUnique (rng f.drawn) f.batch with
    | .error e => (f', .error e)
    | .ok (_, []) => (f', .error .type)
    | .ok (_, _ :: _) => OnPolicy.sampleTimes rng n f'

/-- The sampling for the actor. -/
def OnPolicy.sampleActor {τ : Type} (rng : Nat → List Nat → Nat → List Nat) (f : OnPolicy τ) : OnPolicy τ × Except Err Unit :=
  match f.actorTimes with
  | some n => f.sampleTimes rng n
  | none =>
    match f.buf.sampleAll with
    | .error e => (f, .error e)
    | .ok (_, []) => (f, .error .type)
    | .ok (_, _ :: _) => (f, .ok ())

/-- `update` (a2c.py:328-421, ppo.py:104-215, trpo.py:184-301, gail.py:247-318) as far as the buffer is concerned. The mean losses are divided by the
numbers of updates after the buffer has been cleared. TRPO returns early, without clearing, when the gradient vanishes; that case is left out. -/
def OnPolicy.update {τ : Type} (rng : Nat → List Nat → Nat → List Nat) (f : OnPolicy τ) : OnPolicy τ × Except Err Unit :=
  match f.sampleTimes rng f.disc with
  | (f, .error e) => (f, .error e)
  | (f, .ok ()) =>
    match f.sampleActor rng with
    | (f, .error e) => (f, .error e)
    | (f, .ok ()) =>
      match f.sampleTimes rng f.criticTimes with
      | (f, .error e) => (f, .error e)
      | (f, .ok ()) =>
        let f := { f with buf := f.buf.clear }
        if f.actorTimes = some 0 ∨ f.criticTimes = 0 then (f, .error .zeroDiv) else (f, .ok ())

/-- `store_episode` (a2c.py:269-326): `episode[-1]` of an empty episode is an `IndexError`. -/
def OnPolicy.store {ι τ : Type} (conv : ι → Except Err τ) (f : OnPolicy τ) (ep : List ι) : OnPolicy τ × Except Err Unit :=
  if ep = [] then (f, .error .index)
  else let r := f.buf.storeEpisode conv ep; ({ f with buf := r.1 }, r.2)

/-- An on-policy algorithm. -/
def onPolicyOps {ι τ : Type} (conv : ι → Except Err τ) (rng : Nat → List Nat → Nat → List Nat) : Ops (OnPolicy τ) ι :=
  ⟨fun f ep => f.store conv ep, fun f => f.update rng⟩

/-- The algorithms that have a `store_episode` (`def store_episode` in a2c.py:269, ddpg.py:369, dqn.py:324, gail.py:221, impala.py:217,
rainbow.py:173 and sac.py:270, and their subclasses): ARS and MADDPG do not. -/
def noStore {F ι : Type} (update : F → F × Except Err Unit) : Ops F ι := ⟨fun f _ => (f, .error .attribute), update⟩

end Machin.Auto
