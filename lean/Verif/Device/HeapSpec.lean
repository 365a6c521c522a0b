import Verif.Device.Heap

/-! # Specification of C187: storing values -/

namespace Machin.Device.Spec

open Replay

/-- A value of a major attribute on the device `d`: all its tensors are there. -/
def movedDict (d : Nat) : Leaf → Leaf
  | .dict items => .dict (items.map fun x => (x.1, x.2.map fun y => (d, y.2)))
  | l => l

/-- A value of a sub attribute on the device `d`. -/
def movedTensor (d : Nat) : Leaf → Leaf
  | .tensor _ x => .tensor d x
  | l => l

/-- A transition whose major and sub attributes are on the device `d`; custom attributes are not moved (transition.py:270-271). -/
def moved (d : Nat) (t : TVal) : TVal :=
  ⟨t.major.map fun x => (x.1, movedDict d x.2), t.sub.map fun x => (x.1, movedTensor d x.2), t.custom⟩

/-- A storage seen through a function. -/
def view {α β : Type} (f : α → β) (s : Storage α) : Storage β := ⟨s.maxSize, s.data.map f, s.index⟩

/-- The dictionaries of the major attributes are not at the same time sub or custom attributes. -/
def Separate (t : TObj) : Prop :=
  ∀ a ∈ t.major.map (·.2), a ∉ t.sub.flatMap (fun x => x.2.refs) ∧ a ∉ t.custom.flatMap (fun x => x.2.refs)

/-- What a caller and the storages do: the caller creates objects, writes to those it holds, and stores transitions made of them in storages
of different devices. Beside the objects runs a storage of values: every transition is stored as the value it has at that moment, on the
device of the storage. -/
inductive Reach (dev cap : Nat → Nat) : World → (Nat → Storage TVal) → Prop
  | init : Reach dev cap ⟨⟨fun _ => .other 0, 0⟩, fun _ => false, fun k => Storage.new _ (cap k)⟩ (fun k => Storage.new _ (cap k))
  | alloc {w : World} {A : Nat → Storage TVal} (o : Obj) : Reach dev cap w A → (∀ r ∈ o.refs, w.mine r = true) →
      Reach dev cap { w with heap := w.heap.alloc o, mine := fun a => a == w.heap.size || w.mine a } A
  | write {w : World} {A : Nat → Storage TVal} (a : Nat) (o : Obj) : Reach dev cap w A → w.mine a = true →
      (∀ r ∈ o.refs, w.mine r = true) → Reach dev cap { w with heap := w.heap.set a o } A
  | store {w : World} {A : Nat → Storage TVal} (k : Nat) (ts : List TObj) : Reach dev cap w A →
      (∀ t ∈ ts, (∀ r ∈ t.refs, w.mine r = true) ∧ Separate t) →
      Reach dev cap
        { w with heap := (storeEpisode (dev k) w.heap (w.stores k) ts).1,
                 stores := fun j => if j = k then (storeEpisode (dev k) w.heap (w.stores k) ts).2.1 else w.stores j }
        (fun j => if j = k then ((A k).storeEpisode (ts.map fun t => moved (dev k) (w.heap.readT t))).1 else A j)
  | clear {w : World} {A : Nat → Storage TVal} (k : Nat) : Reach dev cap w A →
      Reach dev cap { w with stores := fun j => if j = k then (w.stores k).clear else w.stores j }
        (fun j => if j = k then (A k).clear else A j)

end Machin.Device.Spec
