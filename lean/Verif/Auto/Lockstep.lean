import Verif.Auto.Launcher

/-!
# Model of several processes that train together

`DistributedLauncher` (`machin/auto/launcher.py`) in all processes of a training: every process runs its own training steps on its own dataset;
a synchronised log (launcher.py:231-237) and the barrier at the end of a step (launcher.py:170) are collective operations. A collective
operation of torch is done when all processes of its group have called it; the synchronised logs use the default process group, the barrier the
group made in `init_frame` (launcher.py:201-202), both of all processes. Timeouts are left out (the group of the barrier has one of 86400 s).
-/

namespace Machin.Auto

/-- The two groups. -/
inductive Grp
  | default
  | own
  deriving DecidableEq, Repr

/-- The group an event has to wait for, if any. -/
def grpOf {V C : Type} : Ev V C → Option Grp
  | .barrier => some .own
  | .log _ _ true => some .default
  | _ => none

/-- `DataLoader(dataset=dataset, batch_size=n)` (launcher.py:139-145) of a dataset that ends: the last batch may be shorter. -/
def chunks {α : Type} (n : Nat) : Nat → List α → List (List α)
  | 0, _ => []
  | fuel + 1, l => if l = [] then [] else l.take n :: chunks n fuel (l.drop n)

/-- The batches of an epoch. -/
def batches {α : Type} (n : Nat) (l : List α) : List (List α) := chunks n l.length l

/-- The training steps of one epoch (the loop of the trainer of pytorch lightning); an exception ends the process. -/
def epochRun {F ι V C : Type} (ops : Ops F ι) (monitors : List String) (dist : Bool) (epoch : Nat) : Nat → List (List (Sample ι V C)) → F →
    F × List (Ev V C) × Except Err Unit
  | _, [], f => (f, [], .ok ())
  | i, b :: bs, f =>
    match distTrainingStep ops monitors dist epoch i b f with
    | (f, evs, .error e) => (f, evs, .error e)
    | (f, evs, .ok ()) => let r := epochRun ops monitors dist epoch (i + 1) bs f; (r.1, evs ++ r.2.1, r.2.2)

/-- All processes: what each of them still has to do, and the collective operations done so far, each with the events that met. -/
structure Joint (P V C : Type) where
  rem : P → List (Ev V C)
  met : List (P → Option (Ev V C))

/-- Is the process waiting for group `g`? -/
def waits {V C : Type} (g : Grp) : List (Ev V C) → Bool
  | [] => false
  | e :: _ => grpOf e == some g

/-- Process `p` goes on: an event of its own is done; a collective operation is done when all processes wait for it, and then all go on. -/
def jstep {P V C : Type} [DecidableEq P] (procs : List P) (p : P) (s : Joint P V C) : Option (Joint P V C) :=
  match s.rem p with
  | [] => none
  | e :: rest =>
    match grpOf e with
    | none => some { s with rem := fun q => if q = p then rest else s.rem q }
    | some g =>
      if procs.all (fun q => waits g (s.rem q)) then
        some ⟨fun q => if q ∈ procs then (s.rem q).tail else s.rem q, s.met ++ [fun q => if q ∈ procs then (s.rem q).head? else none]⟩
      else none

/-- A schedule: processes that cannot go on are passed over. -/
def jrun {P V C : Type} [DecidableEq P] (procs : List P) : List P → Joint P V C → Joint P V C
  | [], s => s
  | p :: ps, s =>
    match jstep procs p s with
    | none => jrun procs ps s
    | some s' => jrun procs ps s'

end Machin.Auto
