import Verif.Base.Err

/-!
# Model of the RPC group tables and of the barrier

`machin/parallel/distributed/_world.py`: the look-up tables of the manager process (`_rpc_set_lut_entry`,
`_rpc_unset_lut_entry`, `_rpc_get_lut_entry`), the local tables of the members of one group, `pair` / `unpair` /
`get_paired` / `register` / `deregister` / service calls, destruction and creation of the group, and the barrier.

One group name is modelled. Values and services are both of type `V` and are told apart by their kind. Each process has one
thread that calls group methods; handlers of incoming calls run in other threads at any time. Tables are functions.
-/

namespace Machin.World

/-- `LUTType` (_world.py:19-21). -/
inductive Kind
  | value | service
  deriving DecidableEq, Repr

variable {P K V : Type} [DecidableEq P] [DecidableEq K]

/-- What the thread of a process is doing: nothing; between the successful answer of the manager and the change of the local
table in `pair`/`register` (_world.py:656-657, 761-762) or in `unpair`/`deregister` (_world.py:687-688, 794-795). -/
inductive Phase (K V : Type)
  | idle
  | acquiring (kind : Kind) (k : K) (v : V)
  | releasing (kind : Kind) (k : K)
  deriving DecidableEq, Repr

/-- The tables: `value_lut`/`service_lut` of the manager, and for each process `WORLD.groups[group_name]` with its
`group_value_lut`/`group_service_lut`, absent if the process has no such group. -/
structure State (P K V : Type) where
  lut : Kind → K → Option P
  groups : P → Option (Kind → K → Option V)
  phase : P → Phase K V

/-- Update of a table. -/
def upd {A B : Type} [DecidableEq A] (f : A → B) (a : A) (b : B) : A → B := fun x => if x = a then b else f x

/-- Update of a table of two arguments. -/
def upd2 {A A' B : Type} [DecidableEq A] [DecidableEq A'] (f : A → A' → B) (a : A) (a' : A') (b : B) : A → A' → B :=
  upd f a (upd (f a) a' b)

/-- `_rpc_set_lut_entry` (_world.py:54-61). -/
def setEntry (lut : Kind → K → Option P) (kind : Kind) (k : K) (p : P) : (Kind → K → Option P) × Bool :=
  match lut kind k with
  | some _ => (lut, false)
  | none => (upd2 lut kind k (some p), true)

/-- `_rpc_unset_lut_entry` (_world.py:64-71). -/
def unsetEntry (lut : Kind → K → Option P) (kind : Kind) (k : K) (p : P) : (Kind → K → Option P) × Bool :=
  match lut kind k with
  | some q => if q = p then (upd2 lut kind k none, true) else (lut, false)
  | none => (lut, false)

/-- First part of `pair` (_world.py:645-656) and `register` (_world.py:750-761): the local check and the call of the
manager. -/
def beginAcquire (s : State P K V) (p : P) (kind : Kind) (k : K) (v : V) : State P K V × Except Err Unit :=
  match s.groups p with
  | none => (s, .error .runtime)
  | some loc =>
    match loc kind k with
    | some _ => (s, .error .key)
    | none =>
      match setEntry s.lut kind k p with
      | (lut, true) => ({ s with lut := lut, phase := upd s.phase p (.acquiring kind k v) }, .ok ())
      | (_, false) => (s, .error .key)

/-- First part of `unpair` (_world.py:676-687) and `deregister` (_world.py:782-794). -/
def beginRelease (s : State P K V) (p : P) (kind : Kind) (k : K) : State P K V × Except Err Unit :=
  match s.groups p with
  | none => (s, .error .runtime)
  | some loc =>
    match loc kind k with
    | none => (s, .error .key)
    | some _ =>
      match unsetEntry s.lut kind k p with
      | (lut, true) => ({ s with lut := lut, phase := upd s.phase p (.releasing kind k) }, .ok ())
      | (_, false) => (s, .error .runtime)

/-- The change of the local table that ends the calls (_world.py:657, 688, 762, 795). -/
def finish (s : State P K V) (p : P) : State P K V :=
  match s.groups p, s.phase p with
  | some loc, .acquiring kind k v =>
    { s with groups := upd s.groups p (some (upd2 loc kind k (some v))), phase := upd s.phase p .idle }
  | some loc, .releasing kind k =>
    { s with groups := upd s.groups p (some (upd2 loc kind k none)), phase := upd s.phase p .idle }
  | _, _ => s

/-- The process to which `get_paired` (_world.py:722-733) and `_rpc_service_call` (_world.py:951-962) send the request. -/
def resolve (s : State P K V) (q : P) (kind : Kind) (k : K) : Option P :=
  match s.groups q with
  | none => s.lut kind k
  | some loc =>
    match loc kind k with
    | some _ => some q
    | none => s.lut kind k

/-- The request in the process `h`: `_rpc_get_paired_value` (_world.py:134-163) and `_rpc_call_service`
(_world.py:100-131). A missing key is removed from the table of the manager: the entry of kind `VALUE`, for values and for
services alike (lines 126 and 158); a missing group removes the entry of the right kind. -/
def serve (s : State P K V) (h : P) (kind : Kind) (k : K) : State P K V × Except Err V :=
  match s.groups h with
  | none => ({ s with lut := (unsetEntry s.lut kind k h).1 }, .error .key)
  | some loc =>
    match loc kind k with
    | some v => (s, .ok v)
    | none => ({ s with lut := (unsetEntry s.lut .value k h).1 }, .error .key)

/-- `get_paired` or a service call, with the request served at once. -/
def lookup (s : State P K V) (q : P) (kind : Kind) (k : K) : State P K V × Except Err V :=
  match resolve s q kind k with
  | none => (s, .error .key)
  | some h => serve s h kind k

/-- `destroy` (_world.py:898-907). Calls on the destroyed object itself are not modelled. -/
def destroy (s : State P K V) (p : P) : State P K V := { s with groups := upd s.groups p none }

/-- `pair`/`register` without interruption. -/
def acquire (s : State P K V) (p : P) (kind : Kind) (k : K) (v : V) : State P K V × Except Err Unit :=
  match beginAcquire s p kind k v with
  | (s', .ok ()) => (finish s' p, .ok ())
  | r => r

/-- `unpair`/`deregister` without interruption. -/
def release (s : State P K V) (p : P) (kind : Kind) (k : K) : State P K V × Except Err Unit :=
  match beginRelease s p kind k with
  | (s', .ok ()) => (finish s' p, .ok ())
  | r => r

/-- `RpcGroup.__init__` and `create_rpc_group` (_world.py:606-612, 364-371): the new group object registers its two barrier
services, and only then is put into `WORLD.groups`. `enter` and `exit` are the two keys made from the name of `p`. -/
def create (s : State P K V) (p : P) (enter exit : K) (v : V) : State P K V × Except Err Unit :=
  match s.groups p with
  | some _ => (s, .error .runtime)
  | none =>
    match setEntry s.lut .service enter p with
    | (_, false) => (s, .error .key)
    | (lut1, true) =>
      match setEntry lut1 .service exit p with
      | (_, false) => ({ s with lut := lut1 }, .error .key)
      | (lut2, true) =>
        ({ s with lut := lut2,
                  groups := upd s.groups p
                    (some (upd2 (upd2 (fun _ _ => none) .service enter (some v)) .service exit (some v))) }, .ok ())

end Machin.World
