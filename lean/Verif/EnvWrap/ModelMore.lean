import Verif.EnvWrap.Model

/-!
# Seeds, rendering and closing in the parallel gym wrappers (`machin/env/wrappers/openai_gym.py`)

In the wrapper with processes the further methods travel as commands like `step`; their result `o` is `Val.stepped o false`.
-/

namespace Machin.EnvWrap

/-- A gym environment with its further methods. `hasSeed` is `hasattr(e, "seed")`; a call of a missing `seed` raises `noSeed`. The result of `close` is an `O` too. -/
structure Gym (E S A O X : Type) where
  reset : E → E × Except X O
  step : E → A → E × Except X (O × Bool)
  hasSeed : E → Bool
  seed : E → Option S → E × Except X O
  render : E → E × Except X O
  close : E → E × Except X O
  noSeed : X

/-- Method names with their arguments. -/
inductive Meth (S A : Type)
  | step (a : A)
  | seed (s : Option S)
  | render
  | close
deriving DecidableEq

/-- `getattr(env, method)(*args, **kwargs)` (openai_gym.py:410). -/
def Gym.sys {E S A O X : Type} (g : Gym E S A O X) : Sys E (Meth S A) O X where
  reset := g.reset
  step e m :=
    match m with
    | .step a => g.step e a
    | .seed s => if g.hasSeed e then let (e, r) := g.seed e s; (e, r.map fun o => (o, false)) else (e, .error g.noSeed)
    | .render => let (e, r) := g.render e; (e, r.map fun o => (o, false))
    | .close => let (e, r) := g.close e; (e, r.map fun o => (o, false))

/-- The argument of `seed`: a number or `None`, or a list. -/
inductive SeedArg (S : Type)
  | scalar (s : Option S)
  | list (l : List (Option S))

/-- `if np.isscalar(seed) or seed is None: seed = [seed] * self.size()` (openai_gym.py:113-114, 290-291). -/
def SeedArg.toList {S : Type} (n : Nat) : SeedArg S → List (Option S)
  | .scalar s => List.replicate n s
  | .list l => l

/-- The loop of `seed` (openai_gym.py:115-119). -/
def seedLoop {E S A O X : Type} (g : Gym E S A O X) : List (Nat × Option S) → Dummy E → Dummy E × Except (Fail X) (List O)
  | [], d => (d, .ok [])
  | (i, s) :: is, d =>
    if g.hasSeed (d.envs i) then
      match g.seed (d.envs i) s with
      | (e, .error x) => ({ d with envs := Function.update d.envs i e }, .error (.env x))
      | (e, .ok o) =>
        match seedLoop g is { d with envs := Function.update d.envs i e } with
        | (d, .ok os) => (d, .ok (o :: os))
        | (d, .error f) => (d, .error f)
    else seedLoop g is d

/-- `ParallelWrapperDummy.seed` (openai_gym.py:97-119). -/
def Dummy.seed {E S A O X : Type} (g : Gym E S A O X) (d : Dummy E) (arg : SeedArg S) : Dummy E × Except (Fail X) (List O) :=
  seedLoop g ((List.range d.n).zip (arg.toList d.n)) d

/-- The loops of `render` (openai_gym.py:132-143); `stop i d` says when `GymTerminationError` is raised. -/
def renderLoop {E S A O X : Type} (g : Gym E S A O X) (stop : Nat → Dummy E → Bool) : List Nat → Dummy E → Dummy E × Except (Fail X) (List O)
  | [], d => (d, .ok [])
  | i :: is, d =>
    if d.n ≤ i then (d, .error .index)
    else if stop i d then (d, .error .termination)
    else
      match g.render (d.envs i) with
      | (e, .error x) => ({ d with envs := Function.update d.envs i e }, .error (.env x))
      | (e, .ok o) =>
        match renderLoop g stop is { d with envs := Function.update d.envs i e } with
        | (d, .ok os) => (d, .ok (o :: os))
        | (d, .error f) => (d, .error f)

/-- `ParallelWrapperDummy.render` (openai_gym.py:121-143): without indexes any terminal environment stops all. -/
def Dummy.render {E S A O X : Type} (g : Gym E S A O X) (d : Dummy E) : Option (List Nat) → Dummy E × Except (Fail X) (List O)
  | none => renderLoop g (fun _ d => (List.range d.n).any d.terminal) (List.range d.n) d
  | some idx => renderLoop g (fun i d => d.terminal i) idx d

/-- `ParallelWrapperSubProc.seed` (openai_gym.py:275-294). -/
def Sub.seed {E S A O X : Type} (g : Gym E S A O X) (st : Sub E (Meth S A) O X) (arg : SeedArg S) (sched : List Ev) :
    Sub E (Meth S A) O X × Ret X (List (Val O)) :=
  callMethod g.sys st (List.range st.n) ((arg.toList st.n).map fun s => .step (.seed s)) sched

/-- `ParallelWrapperSubProc.render` (openai_gym.py:296-315). -/
def Sub.render {E S A O X : Type} (g : Gym E S A O X) (st : Sub E (Meth S A) O X) (idx : Option (List Nat)) (sched : List Ev) :
    Sub E (Meth S A) O X × Ret X (List (Val O)) :=
  let idx := idx.getD (List.range st.n)
  callMethod g.sys st idx (idx.map fun _ => .step .render) sched

/-- The loop of `ParallelWrapperDummy.close` (openai_gym.py:145-150). -/
def closeLoop {E S A O X : Type} (g : Gym E S A O X) : List Nat → Dummy E → Dummy E × Except (Fail X) Unit
  | [], d => (d, .ok ())
  | i :: is, d =>
    match g.close (d.envs i) with
    | (e, .error x) => ({ d with envs := Function.update d.envs i e }, .error (.env x))
    | (e, .ok _) => closeLoop g is { d with envs := Function.update d.envs i e }

/-- `ParallelWrapperDummy.close` (openai_gym.py:145-150). -/
def Dummy.close {E S A O X : Type} (g : Gym E S A O X) (d : Dummy E) : Dummy E × Except (Fail X) Unit := closeLoop g (List.range d.n) d

/-- A wrapper with processes that can be closed: `_closed` (openai_gym.py:223) and the workers that have ended. -/
structure SubC (E S A O X : Type) where
  sub : Sub E (Meth S A) O X
  closed : Bool
  ended : Nat → Bool

/-- `__init__`. -/
def SubC.new {E S A O X : Type} (n : Nat) (envs : Nat → E) : SubC E S A O X := ⟨Sub.new n envs, false, fun _ => false⟩

/-- Workers that have ended do no more rounds. -/
def alive (ended : Nat → Bool) (sched : List Ev) : List Ev :=
  sched.filter fun
    | .worker i => !ended i
    | .get => true

/-- `_call_gym_env_method` (openai_gym.py:362-381) when some workers have ended (`watch` raises only for workers that failed). -/
def SubC.call {E S A O X : Type} (g : Gym E S A O X) (w : SubC E S A O X) (idxs : List Nat) (args : List (Cmd (Meth S A))) (sched : List Ev) :
    SubC E S A O X × Ret X (List (Val O)) :=
  match callMethod g.sys w.sub idxs args (alive w.ended sched) with
  | (st, r) => ({ w with sub := st }, r)

/-- `ParallelWrapperSubProc.close` (openai_gym.py:317-330): after the call every worker is told to end and joined. -/
def SubC.close {E S A O X : Type} (g : Gym E S A O X) (w : SubC E S A O X) (sched : List Ev) : SubC E S A O X × Ret X Unit :=
  if w.closed then (w, .ok ())
  else
    match SubC.call g { w with closed := true } (List.range w.sub.n) ((List.range w.sub.n).map fun _ => .step .close) sched with
    | (w, .waiting) => (w, .waiting)
    | (w, .fail f) => (w, .fail f)
    | (w, .ok _) => ({ w with ended := fun i => i < w.sub.n || w.ended i }, .ok ())

end Machin.EnvWrap
