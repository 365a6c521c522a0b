import Verif.World.Local

/-!
# Model of the destruction of group objects

`machin/parallel/distributed/_world.py`: `RpcGroup.__init__` (598-606), `create_rpc_group` as far as `WORLD.groups` is concerned (364-371),
`RpcGroup.destroy` (897-907), `RpcGroup.__reduce__` (977-979), `CollectiveGroup.destroy` and `__del__` (572-578, 590-591).

One process and one group name. The group objects of the process are numbered in the order in which they appear: those made by
`create_rpc_group`, which are put into `WORLD.groups`, and copies that arrive by pickling (`first_create=False`), which are not.
-/

namespace Machin.World.Destroy

/-- `WORLD.groups[group_name]`, the attribute `destroyed` of every object, and the number of objects. -/
structure Proc where
  reg : Option Nat
  destroyed : Nat → Bool
  next : Nat

/-- A process without groups. -/
def start : Proc := ⟨none, fun _ => false, 0⟩

/-- What a process does with group objects. -/
inductive Op
  | create
  | receive
  | destroy (o : Nat)
  deriving DecidableEq, Repr

/-- `destroy` (903-907): `WORLD.groups.pop(name)` raises `KeyError` if the name is absent, before `destroyed` is set. -/
def Proc.destroy (s : Proc) (o : Nat) : Proc × Except Err Unit :=
  if s.destroyed o then (s, .ok ())
  else
    match s.reg with
    | none => (s, .error .key)
    | some _ => ({ s with reg := none, destroyed := fun x => if x = o then true else s.destroyed x }, .ok ())

/-- One operation; an operation on an object that does not exist is no operation. -/
def Proc.step (s : Proc) : Op → Proc × Except Err Unit
  | .create =>
    match s.reg with
    | some _ => (s, .error .runtime)
    | none => ({ s with reg := some s.next, next := s.next + 1 }, .ok ())
  | .receive => ({ s with next := s.next + 1 }, .ok ())
  | .destroy o => if o < s.next then s.destroy o else (s, .ok ())

/-- A history. -/
def Proc.run (s : Proc) (ops : List Op) : Proc := ops.foldl (fun s op => (s.step op).1) s

/-- `CollectiveGroup.destroy` (572-578): the flag and the calls of `dist.destroy_process_group` so far. -/
def collectiveDestroy (s : Bool × Nat) : Bool × Nat := if s.1 then s else (true, s.2 + 1)

/-- An object of class `RpcGroup` after its destruction, seen as an object that is not in `WORLD.groups`: it keeps its tables (897-907). -/
def afterDestroy {P K V : Type} [DecidableEq P] [DecidableEq K] (s : State P K V) (p : P) (members : List P)
    (loc : Kind → K → Option V) : State P K V × Copy P K V :=
  (World.destroy s p, ⟨members, loc⟩)

end Machin.World.Destroy
