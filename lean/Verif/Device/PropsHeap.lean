import Verif.Device.HeapLemmas

/-! # C187: what is stored is isolated from the caller and lies on the device of the storage -/

namespace Machin.Device

open Spec Replay

/-- After any interleaving of creating objects, writing to the objects the caller holds, storing episodes in storages of different devices
and clearing them, every storage reads exactly as a storage of values would: each transition as it was when it was stored, moved to the
device of the storage; nothing the caller wrote afterwards, and nothing stored elsewhere, shows. (`device = None` is not modelled.) -/
theorem C187_values (dev cap : Nat → Nat) (w : World) (A : Nat → Storage TVal) (h : Reach dev cap w A) (k : Nat) :
    view w.heap.readT (w.stores k) = A k :=
  h.inv.same k

/-- Storing does not change any object of the caller — in particular moving to the device does not move the caller's tensors or exchange the
entries of its dictionaries — and it gives the positions, or the error, that the storage of values gives. -/
theorem C187_caller (dev cap : Nat → Nat) (w : World) (A : Nat → Storage TVal) (h : Reach dev cap w A) (k : Nat) (ts : List TObj)
    (hts : ∀ t ∈ ts, (∀ r ∈ t.refs, w.mine r = true) ∧ Separate t) :
    (∀ a, w.mine a = true → (storeEpisode (dev k) w.heap (w.stores k) ts).1.obj a = w.heap.obj a) ∧
      (∀ t, (∀ r ∈ t.refs, w.mine r = true) → (storeEpisode (dev k) w.heap (w.stores k) ts).1.readT t = w.heap.readT t) ∧
      (storeEpisode (dev k) w.heap (w.stores k) ts).2.2 =
        ((A k).storeEpisode (ts.map fun t => moved (dev k) (w.heap.readT t))).2 := by
  have i := h.inv
  obtain ⟨s1, s2, s3, s4, s5, s6⟩ := storeEpisode_spec (dev k) ts w.heap (w.stores k) i.closed
    (fun t ht => ⟨fun a ha => (i.caller a ((hts t ht).1 a ha)).1, (hts t ht).2⟩) (fun t ht a ha => (i.data k t ht a ha).1)
  refine ⟨fun a ha => s2 a (i.caller a ha).1, ?_, ?_⟩
  · intro t ht
    exact readT_closed (fun a => w.mine a = true) (fun a ha => (i.caller a ha).2) (fun a ha => s2 a (i.caller a ha).1) ht
  · rw [← i.same k, s6]

/-- The tensors of a transition value that lie in major or sub attributes are on the device `d`. -/
def OnDevice (d : Nat) (t : TVal) : Prop :=
  (∀ x ∈ t.major, ∀ items, x.2 = .dict items → ∀ y ∈ items, ∀ e c, y.2 = some (e, c) → e = d) ∧
    ∀ x ∈ t.sub, ∀ e c, x.2 = .tensor e c → e = d

/-- Every tensor in a major or sub attribute of a stored transition is on the device of its storage, always. -/
theorem C187_device (dev cap : Nat → Nat) (w : World) (A : Nat → Storage TVal) (h : Reach dev cap w A) (k : Nat) :
    ∀ t ∈ (w.stores k).data, OnDevice (dev k) (w.heap.readT t) := by
  have key : ∀ k, ∀ v ∈ (A k).data, ∃ u, v = moved (dev k) u := by
    clear k
    induction h with
    | init => intro k v hv; simp [Storage.new] at hv
    | alloc o _ _ ih => exact ih
    | write a o _ _ _ ih => exact ih
    | @store w A k ts _ _ ih =>
      intro j v hv
      simp only at hv
      by_cases hj : j = k
      · subst hj
        rw [if_pos rfl] at hv
        have gen : ∀ (vs : List TVal) (s : Storage TVal), (∀ v ∈ s.data, ∃ u, v = moved (dev j) u) →
            (∀ v ∈ vs, ∃ u, v = moved (dev j) u) → ∀ v ∈ (s.storeLoop vs).1.data, ∃ u, v = moved (dev j) u := by
          intro vs
          induction vs with
          | nil => intro s hs _; exact hs
          | cons x vs ihv =>
            intro s hs hx
            have h1 : ∀ v ∈ (s.storeOne x).1.data, ∃ u, v = moved (dev j) u := by
              intro v hv
              rcases storeOne_data s x v hv with rfl | hv
              · exact hx v (by simp)
              · exact hs v hv
            rw [Storage.storeLoop]
            cases hso : s.storeOne x with
            | mk s1 r1 =>
              rw [hso] at h1
              cases r1 with
              | error e => exact h1
              | ok p =>
                have h2 := ihv s1 h1 (fun v hv => hx v (by simp [hv]))
                simp only
                cases hsl : s1.storeLoop vs with
                | mk s2 r2 =>
                  rw [hsl] at h2
                  cases r2 <;> exact h2
        have h3 := gen (ts.map fun t => moved (dev j) (w.heap.readT t)) (A j) (ih j) (fun v hv => by
          obtain ⟨t, _, rfl⟩ := List.mem_map.1 hv
          exact ⟨_, rfl⟩)
        unfold Storage.storeEpisode at hv
        cases hsl : (A j).storeLoop (ts.map fun t => moved (dev j) (w.heap.readT t)) with
        | mk s2 r2 =>
          rw [hsl] at hv h3
          cases r2 with
          | error e => exact h3 v hv
          | ok ps =>
            simp only at hv
            split at hv <;> exact h3 v hv
      · rw [if_neg hj] at hv
        exact ih j v hv
    | @clear w A k _ ih =>
      intro j v hv
      simp only at hv
      by_cases hj : j = k
      · rw [if_pos hj] at hv
        simp [Storage.clear] at hv
      · rw [if_neg hj] at hv
        exact ih j v hv
  intro t ht
  have hmem : w.heap.readT t ∈ (A k).data := by
    rw [← h.inv.same k]
    exact List.mem_map_of_mem ht
  obtain ⟨u, hu⟩ := key k _ hmem
  rw [hu]
  constructor
  · intro x hx items hit y hy e c he
    obtain ⟨x0, _, rfl⟩ := List.mem_map.1 hx
    simp only at hit
    cases hl : x0.2 with
    | dict its =>
      rw [hl] at hit
      simp only [movedDict, Leaf.dict.injEq] at hit
      subst hit
      obtain ⟨y0, _, rfl⟩ := List.mem_map.1 hy
      simp only at he
      cases hy0 : y0.2 with
      | none => simp [hy0] at he
      | some q =>
        simp only [hy0, Option.map_some, Option.some.injEq, Prod.mk.injEq] at he
        exact he.1.symm
    | tensor _ _ => simp [hl, movedDict] at hit
    | other _ => simp [hl, movedDict] at hit
    | num _ => simp [hl, movedDict] at hit
  · intro x hx e c he
    obtain ⟨x0, _, rfl⟩ := List.mem_map.1 hx
    simp only at he
    cases hl : x0.2 with
    | tensor _ _ =>
      simp only [hl, movedTensor, Leaf.tensor.injEq] at he
      exact he.1.symm
    | dict _ => simp [hl, movedTensor] at he
    | other _ => simp [hl, movedTensor] at he
    | num _ => simp [hl, movedTensor] at he

/-- A transition of the caller: the state dictionary is at 1 and holds the tensor 0, the reward is the tensor 2, the custom attribute is the
tensor 0 as well. -/
def tExample : TObj := ⟨[("state", 1)], [("reward", .ref 2), ("terminal", .num 1)], [("raw", .ref 0)]⟩

/-- The caller creates a tensor on device 0, a dictionary with it and a reward on device 0. -/
def wExample : World :=
  { heap := ((((⟨fun _ => .other 0, 0⟩ : Heap).alloc (.tensor 0 7)).alloc (.dict [("s", 0)])).alloc (.tensor 0 5)),
    mine := fun a => a == 2 || (a == 1 || (a == 0 || false)), stores := fun _ => Storage.new _ 2 }

theorem wExample_reach : Reach (fun k => k) (fun _ => 2) wExample (fun _ => Storage.new _ 2) := by
  refine .alloc (.tensor 0 5) (.alloc (.dict [("s", 0)]) (.alloc (.tensor 0 7) .init ?_) ?_) ?_ <;> simp [Obj.refs]

example : ∀ t ∈ [tExample], (∀ r ∈ t.refs, wExample.mine r = true) ∧ Separate t := by
  intro t ht
  rw [List.mem_singleton.1 ht]
  refine ⟨by decide, ?_⟩
  intro a ha
  have : a = 1 := by simpa [tExample] using ha
  subst this
  decide

/-- Stored on device 1 the transition reads: state and reward on device 1, the custom tensor still on device 0 — although it was the same
object as the state tensor. The objects of the caller are as before, and writing to them leaves the stored one alone. -/
example :
    let r := storeEpisode 1 wExample.heap (wExample.stores 1) [tExample]
    let v : TVal := ⟨[("state", .dict [("s", some (1, 7))])], [("reward", .tensor 1 5), ("terminal", .num 1)], [("raw", .tensor 0 7)]⟩
    r.2.1.data.map r.1.readT = [v] ∧ r.1.readT tExample =
      ⟨[("state", .dict [("s", some (0, 7))])], [("reward", .tensor 0 5), ("terminal", .num 1)], [("raw", .tensor 0 7)]⟩ ∧
      r.2.1.data.map ((r.1.set 1 (.dict [])).set 2 (.tensor 0 100)).readT = [v] := by
  decide +kernel

end Machin.Device
