import Verif.Base.Err

/-!
# Model of collective groups

`machin/parallel/distributed/_world.py`, `World.create_collective_group` (321-345) and `CollectiveGroup` (417-591).
`torch.distributed` is modelled by what it documents: `new_group` of sorted ranks numbers its members by their positions,
`_get_group_rank` and `_get_global_rank` translate (the first raises `RuntimeError` for a rank outside the group),
`recv_anysource` reports the group rank of the sender, and `send` takes the global rank of the receiver. Tensors, tags and
timing are left out: a message is its sender, its receiver and its content.
-/

namespace Machin.Group

/-- `sorted(ranks)` (_world.py:340): insertion. -/
def insertRank (r : Nat) : List Nat → List Nat
  | [] => [r]
  | x :: xs => if r ≤ x then r :: x :: xs else x :: insertRank r xs

/-- `sorted(ranks)` (_world.py:340). -/
def sortRanks : List Nat → List Nat
  | [] => []
  | r :: rs => insertRank r (sortRanks rs)

/-- `list.index` (_world.py:343) and the numbering of `new_group`. -/
def indexOf? (r : Nat) : List Nat → Option Nat
  | [] => none
  | x :: xs => if x = r then some 0 else (indexOf? r xs).map (· + 1)

/-- A `CollectiveGroup` object: the ranks of the process group (`none` is the group of the whole world, whose numbers are
the global ranks), the relative rank, the rank of the process that holds the object, the flag `destroyed`, and how often
`destroy_process_group` was called for it. -/
structure CGroup where
  ranks : Option (List Nat)
  current : Option Nat
  self : Nat
  destroyed : Bool
  calls : Nat
  deriving DecidableEq, Repr

/-- `create_collective_group` (_world.py:340-345) in the process of rank `rank`. -/
def createCollective (ranks : List Nat) (rank : Nat) : CGroup :=
  let ranks := sortRanks ranks
  ⟨some ranks, if rank ∈ ranks then indexOf? rank ranks else none, rank, false, 0⟩

/-- `_get_global_rank` of `torch.distributed`: the rank of the member with this number. -/
def globalRank (g : CGroup) (i : Nat) : Except Err Nat :=
  match g.ranks with
  | none => .ok i
  | some ranks => match ranks[i]? with
    | some r => .ok r
    | none => .error .runtime

/-- `_get_group_rank` of `torch.distributed`. -/
def groupRank (g : CGroup) (r : Nat) : Except Err Nat :=
  match g.ranks with
  | none => .ok r
  | some ranks => match indexOf? r ranks with
    | some i => .ok i
    | none => .error .runtime

/-- A message between members; both ends by their numbers in the group, as the backend sees them. -/
structure Msg where
  src : Nat
  dst : Nat
  body : Nat
  deriving DecidableEq, Repr

/-- `send` and `isend` (_world.py:433-443): `dst` is a global rank. Outside the group nothing is sent. -/
def CGroup.send (g : CGroup) (dst body : Nat) : Except Err (Option Msg) :=
  match g.ranks with
  | none => .ok (some ⟨g.self, dst, body⟩)
  | some ranks =>
    match indexOf? g.self ranks with
    | none => .ok none
    | some me =>
      match groupRank g dst with
      | .error e => .error e
      | .ok d => .ok (some ⟨me, d, body⟩)

/-- What `irecv(…).wait()` returns: -1, or the number of the sender and the content that was received. -/
inductive Recv
  | outside
  | got (src body : Nat)
  deriving DecidableEq, Repr

/-- The first message for member `me`, from `src` if that is given, and the others. -/
def takeMsg (me : Nat) (src : Option Nat) : List Msg → Option (Msg × List Msg)
  | [] => none
  | m :: ms =>
    if m.dst = me ∧ (src = none ∨ src = some m.src) then some (m, ms)
    else (takeMsg me src ms).map fun r => (r.1, m :: r.2)

/-- `irecv` and the `wait` of its result (_world.py:445-516) against the messages in flight; `none` if `wait` blocks. -/
def CGroup.irecv (g : CGroup) (src : Option Nat) (net : List Msg) : Option (Except Err Recv × List Msg) :=
  match g.ranks with
  | some ranks =>
    match indexOf? g.self ranks with
    | none => some (.ok .outside, net)                                -- 462-468
    | some me =>
      match src with
      | none =>                                                       -- 476-477, 490-502
        match takeMsg me none net with
        | none => none
        | some (m, net') =>
          match globalRank g m.src with
          | .error e => some (.error e, net')
          | .ok r => some (.ok (.got r m.body), net')
      | some s =>                                                     -- 506-516
        match groupRank g s with
        | .error e => some (.error e, net)
        | .ok gs =>
          match takeMsg me (some gs) net with
          | none => none
          | some (m, net') => some (.ok (.got s m.body), net')
  | none =>
    match src with
    | none =>                                                         -- 478-489
      match takeMsg g.self none net with
      | none => none
      | some (m, net') => some (.ok (.got m.src m.body), net')
    | some s =>                                                       -- 504-505, 510-516
      match takeMsg g.self (some s) net with
      | none => none
      | some (m, net') => some (.ok (.got s m.body), net')

/-- `destroy` (_world.py:572-578); `__del__` (590-591) calls it too. -/
def CGroup.destroy (g : CGroup) : CGroup :=
  if g.destroyed then g else { g with calls := g.calls + 1, destroyed := true }

end Machin.Group
