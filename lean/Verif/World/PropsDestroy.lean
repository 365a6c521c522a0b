import Verif.World.Destroy

/-! # Destroying group objects (C231) -/

namespace Machin.World.Destroy

/-! ### Specification -/

/-- What destroying object `o` is to do with the group that is in use: take it away if it is that object. -/
def wanted (reg : Option Nat) (o : Nat) : Option Nat := if reg = some o then none else reg

/-- The history has no copies that came by pickling. -/
def NoCopies (ops : List Op) : Prop := .receive ∉ ops

/-- C231, full statement: after any history `destroy()` of any group object succeeds, and the group in use is taken away exactly if it is that
object; and a destroyed object refuses to pair keys. -/
def C231_full : Prop :=
  (∀ ops o, o < (start.run ops).next → ((start.run ops).destroy o).2 = .ok () ∧ ((start.run ops).destroy o).1.reg = wanted (start.run ops).reg o) ∧
  (∀ (s : State Nat Nat Nat) (p : Nat) (members : List Nat) (loc : Kind → Nat → Option Nat) (kind : Kind) (k v : Nat),
    s.groups p = some loc → ∃ e,
      (Copy.acquire (afterDestroy s p members loc).1 (afterDestroy s p members loc).2 p kind k v).2.2 = .error e)

/-! ### Violations -/

/-- Destroying a copy takes the group away from the process, and then the destruction of the group itself raises `KeyError`. -/
theorem C231_violated_copy :
    (start.run [.create, .receive, .destroy 1]).reg = none ∧
    ((start.run [.create, .receive, .destroy 1]).destroy 0).2 = .error .key := by decide

/-- A copy of a group that was destroyed long ago takes away the group that was made afterwards. -/
theorem C231_violated_later :
    (start.run [.create, .receive, .destroy 0, .create]).reg = some 2 ∧
    (start.run [.create, .receive, .destroy 0, .create, .destroy 1]).reg = none := by decide

theorem C231_violated : ¬ C231_full := by
  rintro ⟨h, _⟩
  have := (h [.create, .receive] 1 (by decide)).2
  revert this
  decide

/-- What is paired through a destroyed object is accepted if the key is free, cannot be read by anybody, and the first attempt takes the
entry away again. -/
theorem C231_violated_use {P K V : Type} [DecidableEq P] [DecidableEq K] (s : State P K V) (p q : P) (members : List P)
    (loc : Kind → K → Option V) (kind : Kind) (k : K) (v : V) (hp : p ∈ members) (hloc : loc kind k = none) (hfree : s.lut kind k = none)
    (hq : ∀ l, (World.destroy s p).groups q = some l → l kind k = none) :
    let d := afterDestroy s p members loc
    let r := Copy.acquire d.1 d.2 p kind k v
    r.2.2 = .ok () ∧ (lookup r.1 q kind k).2 = .error .key ∧ (Copy.lookup r.1 r.2.1 p kind k).2 = .error .key ∧
    (lookup r.1 q kind k).1.lut kind k = none := by
  intro d r
  have er : r = ({ World.destroy s p with lut := upd2 s.lut kind k (some p) }, ⟨members, upd2 loc kind k (some v)⟩, .ok ()) := by
    simp only [r, d, afterDestroy, Copy.acquire, if_pos hp, hloc, setEntry]
    simp only [World.destroy, hfree]
  have hlut : upd2 s.lut kind k (some p) kind k = some p := by simp [upd2, upd]
  have hgp : (World.destroy s p).groups p = none := by simp [World.destroy, upd]
  have hserve : serve r.1 p kind k = ({ r.1 with lut := upd2 r.1.lut kind k none }, .error .key) := by
    rw [er]
    simp only [serve, hgp, unsetEntry, hlut, if_true]
  have hres : resolve r.1 q kind k = some p := by
    rw [er]
    simp only [resolve]
    cases hgq : (World.destroy s p).groups q with
    | none => exact hlut
    | some l => simp only [hq l hgq]; exact hlut
  refine ⟨by rw [er], ?_, ?_, ?_⟩
  · simp only [lookup, hres, hserve]
  · have : r.2.1.loc kind k = some v := by rw [er]; simp [upd2, upd]
    simp only [Copy.lookup, this, hserve]
  · simp only [lookup, hres, hserve]
    simp [upd2, upd]

example : let s : State Nat Nat Nat := ⟨fun _ _ => none, fun p => if p < 2 then some (fun _ _ => none) else none, fun _ => .idle⟩
    (∀ l, (World.destroy s 0).groups 1 = some l → l .value 5 = none) ∧ s.lut .value 5 = none ∧
    (Copy.acquire (afterDestroy s 0 [0, 1] (fun _ _ => none)).1 (afterDestroy s 0 [0, 1] (fun _ _ => none)).2 0 .value 5 9).2.2 = .ok () := by
  refine ⟨?_, rfl, rfl⟩
  intro l hl
  simp only [World.destroy, upd] at hl
  injection hl with hl
  rw [← hl]

/-! ### What holds -/

/-- Without copies: objects that were taken out of use are destroyed, all others are in use or not there. -/
structure Tidy (s : Proc) : Prop where
  used : ∀ o, s.reg = some o → o < s.next ∧ s.destroyed o = false
  old : ∀ o, o < s.next → s.reg ≠ some o → s.destroyed o = true
  new : ∀ o, s.next ≤ o → s.destroyed o = false

theorem Tidy.start : Tidy start := ⟨by simp [Destroy.start], by simp [Destroy.start], by simp [Destroy.start]⟩

theorem Tidy.destroy {s : Proc} (h : Tidy s) (o : Nat) (ho : o < s.next) :
    Tidy (s.destroy o).1 ∧ (s.destroy o).2 = .ok () ∧ (s.destroy o).1.reg = wanted s.reg o := by
  by_cases hd : s.destroyed o = true
  · have e : s.destroy o = (s, .ok ()) := by unfold Proc.destroy; rw [if_pos hd]
    rw [e]
    refine ⟨h, rfl, ?_⟩
    unfold wanted
    rw [if_neg]
    intro hr
    rw [(h.used o hr).2] at hd
    cases hd
  · have hr : s.reg = some o := by
      apply Classical.byContradiction
      intro hr
      exact hd (h.old o ho hr)
    have e : s.destroy o = ({ s with reg := none, destroyed := fun x => if x = o then true else s.destroyed x }, .ok ()) := by
      unfold Proc.destroy; rw [if_neg hd, hr]
    rw [e]
    refine ⟨⟨?_, ?_, ?_⟩, rfl, by simp [wanted, hr]⟩
    · intro x hx; cases hx
    · intro x hx _
      show (if x = o then true else s.destroyed x) = true
      split
      · rfl
      · rename_i hne
        exact h.old x hx (by rw [hr]; intro hh; injection hh with hh; exact hne hh.symm)
    · intro x hx
      show (if x = o then true else s.destroyed x) = false
      have hx' : s.next ≤ x := hx
      rw [if_neg (by omega)]
      exact h.new x hx'

theorem Tidy.step {s : Proc} (h : Tidy s) (op : Op) (hop : op ≠ .receive) : Tidy (s.step op).1 := by
  cases op with
  | receive => exact absurd rfl hop
  | create =>
    cases hr : s.reg with
    | some o =>
      have e : s.step .create = (s, .error .runtime) := by simp only [Proc.step, hr]
      rw [e]; exact h
    | none =>
      have e : s.step .create = ({ s with reg := some s.next, next := s.next + 1 }, .ok ()) := by simp only [Proc.step, hr]
      rw [e]
      refine ⟨?_, ?_, ?_⟩
      · intro o ho
        injection ho with ho
        subst ho
        exact ⟨Nat.lt_succ_self _, h.new _ (Nat.le_refl _)⟩
      · intro o ho hne
        have ho' : o < s.next + 1 := ho
        have : o ≠ s.next := by intro e; subst e; exact hne rfl
        exact h.old o (by omega) (by rw [hr]; simp)
      · intro o ho
        have ho' : s.next + 1 ≤ o := ho
        exact h.new o (by omega)
  | destroy o =>
    by_cases ho : o < s.next
    · have e : s.step (.destroy o) = s.destroy o := by simp only [Proc.step, if_pos ho]
      rw [e]; exact (h.destroy o ho).1
    · have e : s.step (.destroy o) = (s, .ok ()) := by simp only [Proc.step, if_neg ho]
      rw [e]; exact h

theorem Tidy.run (ops : List Op) : ∀ {s : Proc}, Tidy s → NoCopies ops → Tidy (s.run ops) := by
  induction ops with
  | nil => intro s h _; exact h
  | cons op rest ih =>
    intro s h hn
    simp only [NoCopies, List.mem_cons, not_or] at hn
    exact ih (h.step op (fun e => hn.1 e.symm)) hn.2

/-- **C231.** In histories without copies `destroy()` of any group object succeeds, however often it is called, and takes the group in use away
exactly if it is that object. -/
theorem C231_own_partial (ops : List Op) (h : NoCopies ops) (o : Nat) (ho : o < (start.run ops).next) :
    ((start.run ops).destroy o).2 = .ok () ∧ ((start.run ops).destroy o).1.reg = wanted (start.run ops).reg o :=
  (Tidy.start.run ops h |>.destroy o ho).2

example : NoCopies [.create, .destroy 0, .destroy 0, .create] ∧ (start.run [.create, .destroy 0, .destroy 0, .create]).reg = some 1 ∧
    ((start.run [.create, .destroy 0, .destroy 0, .create]).destroy 0).1.reg = some 1 := by
  refine ⟨by unfold NoCopies; decide, by decide, by decide⟩

/-- **C231.** In all states, exactly: `destroy()` raises `KeyError` if and only if the object was not destroyed and no group is in use, and it
takes away whatever group is in use if the object was not destroyed; then the object is destroyed and further calls do nothing. -/
theorem C231_exact_partial (s : Proc) (o : Nat) :
    ((s.destroy o).2 = .error .key ↔ s.destroyed o = false ∧ s.reg = none) ∧
    ((s.destroy o).2 = .ok () ∨ (s.destroy o).2 = .error .key) ∧
    (s.destroy o).1.reg = (if s.destroyed o then s.reg else none) ∧
    ((s.destroy o).2 = .ok () → (s.destroy o).1.destroyed o = true ∧ (s.destroy o).1.destroy o = ((s.destroy o).1, .ok ())) ∧
    (∀ x, x ≠ o → (s.destroy o).1.destroyed x = s.destroyed x) := by
  by_cases hd : s.destroyed o = true
  · have e : s.destroy o = (s, .ok ()) := by unfold Proc.destroy; rw [if_pos hd]
    rw [e]
    simp [hd, e]
  · cases hr : s.reg with
    | none =>
      have e : s.destroy o = (s, .error .key) := by unfold Proc.destroy; rw [if_neg hd, hr]
      rw [e]
      simp at hd
      simp [hd, hr]
    | some x =>
      have e : s.destroy o = ({ s with reg := none, destroyed := fun x => if x = o then true else s.destroyed x }, .ok ()) := by
        unfold Proc.destroy; rw [if_neg hd, hr]
      rw [e]
      simp at hd
      refine ⟨by simp, Or.inl rfl, by simp [hd], fun _ => ⟨by simp, by simp [Proc.destroy]⟩, fun y hy => by simp [hy]⟩

/-- **C231.** A collective group is given back to torch once, however often `destroy()` is called and the object finalised. -/
theorem C231_collective_partial (n : Nat) : (Nat.repeat collectiveDestroy n (false, 0)).2 = min n 1 := by
  have key : ∀ n, Nat.repeat collectiveDestroy (n + 1) (false, 0) = (true, 1) := by
    intro n
    induction n with
    | zero => rfl
    | succ n ih => rw [Nat.repeat, ih]; rfl
  cases n with
  | zero => rfl
  | succ n => rw [key]; show 1 = min (n + 1) 1; omega

end Machin.World.Destroy
