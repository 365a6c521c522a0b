import Verif.Server.GradLemmas
import Mathlib.Algebra.Module.Defs
import Mathlib.Algebra.Order.Ring.Rat
import Mathlib.Data.Multiset.AddSub

/-! # Mapping the values of gradients through a run of the gradient server -/

namespace Machin.Server

open Spec

variable {M M' : Type}

/-- A dictionary with every value replaced. -/
def gmap (f : M → M') (g : Grad M) : Grad M' := g.map fun kv => (kv.1, f kv.2)

def PC.map (f : M → M') : PC M → PC M'
  | .idle => .idle
  | .dropM => .dropM
  | .dropS => .dropS
  | .chkM => .chkM
  | .gatherM b => .gatherM (b.map (gmap f))
  | .chkS => .chkS
  | .gatherS b => .gatherS (b.map (gmap f))
  | .send d => .send (gmap f d)
  | .dead => .dead

def Proc.map (f : M → M') (p : Proc M) : Proc M' := ⟨p.masterQ.map (gmap f), p.secQ.map (gmap f), p.pc.map f⟩

def Effect.map (f : M → M') : Effect M → Effect M'
  | .none => .none
  | .discard d => .discard (gmap f d)
  | .apply d => .apply (gmap f d)
  | .lose d => .lose (gmap f d)
  | .send d => .send (gmap f d)

def World.map (f : M → M') (w : World M) : World M' :=
  ⟨w.procs.map (Proc.map f), w.primary, w.applied.map (gmap f), w.discarded.map (gmap f), w.lost.map (gmap f)⟩

def GAct.map (f : M → M') : GAct M → GAct M'
  | .push i g => .push i (gmap f g)
  | .thread i => .thread i

/-- The settings `c'` do with mapped values what `c` does. -/
structure Fits (f : M → M') (c : GCfg M) (c' : GCfg M') : Prop where
  bs : c'.batchSize = c.batchSize
  mq : c'.maxQueue = c.maxQueue
  mg : c'.managed = c.managed
  names : c'.modelKeys = c.modelKeys
  red : ∀ l, c'.red (l.map f) = f (c.red l)

theorem addItem_map (f : M → M') (acc : PyDict String (List M)) (kv : String × M) :
    addItem (acc.map fun e => (e.1, e.2.map f)) (kv.1, f kv.2) = (addItem acc kv).map fun e => (e.1, e.2.map f) := by
  have hset : ∀ (d : PyDict String (List M)) (k : String) (x : List M),
      PyDict.set (d.map fun e => (e.1, e.2.map f)) k (x.map f) = (d.set k x).map fun e => (e.1, e.2.map f) := by
    intro d k x
    have hm : PyDict.mem (d.map fun e => (e.1, e.2.map f)) k = PyDict.mem d k := by
      simp [PyDict.mem, List.any_map, Function.comp_def]
    unfold PyDict.set
    rw [hm]
    split
    · rw [List.map_map, List.map_map]
      apply List.map_congr_left
      intro e _
      simp only [Function.comp]
      split <;> rfl
    · rw [List.map_append]
      rfl
  unfold addItem
  rw [get?_map_snd]
  cases h : acc.get? kv.1 with
  | none => simpa using hset acc kv.1 [kv.2]
  | some l => simpa using hset acc kv.1 (l ++ [kv.2])

theorem addGrad_map (f : M → M') (g : Grad M) (acc : PyDict String (List M)) :
    addGrad (acc.map fun e => (e.1, e.2.map f)) (gmap f g) = (addGrad acc g).map fun e => (e.1, e.2.map f) := by
  unfold addGrad gmap
  induction g generalizing acc with
  | nil => rfl
  | cons a g ih =>
    rw [List.map_cons, List.foldl_cons, List.foldl_cons, addItem_map, ih]

theorem reduceBatch_map (f : M → M') (red : List M → M) (red' : List M' → M') (h : ∀ l, red' (l.map f) = f (red l)) (batch : List (Grad M)) :
    reduceBatch red' (batch.map (gmap f)) = gmap f (reduceBatch red batch) := by
  have : ∀ acc : PyDict String (List M), (batch.map (gmap f)).foldl addGrad (acc.map fun e => (e.1, e.2.map f)) =
      (batch.foldl addGrad acc).map fun e => (e.1, e.2.map f) := by
    induction batch with
    | nil => intro acc; rfl
    | cons g batch ih => intro acc; rw [List.map_cons, List.foldl_cons, List.foldl_cons, addGrad_map, ih]
  have h0 := this []
  simp only [List.map_nil] at h0
  unfold reduceBatch
  rw [h0]
  unfold gmap
  rw [List.map_map, List.map_map]
  apply List.map_congr_left
  intro e _
  simp [h]

theorem gmap_keys (f : M → M') (g : Grad M) : PyDict.keys (gmap f g) = PyDict.keys g := keys_map_snd g f

theorem gmap_get? (f : M → M') (g : Grad M) (k : String) : PyDict.get? (gmap f g) k = (PyDict.get? g k).map f := get?_map_snd g f k

theorem Proc.step_map {f : M → M'} {c : GCfg M} {c' : GCfg M'} (h : Fits f c c') (p : Proc M) :
    (p.map f).step c' = ((p.step c).1.map f, (p.step c).2.map f) := by
  obtain ⟨mq, sq, pc⟩ := p
  cases pc with
  | idle =>
    simp only [Proc.step, Proc.map, PC.map, List.length_map, h.bs]
    split <;> rfl
  | dropM =>
    simp only [Proc.step, Proc.map, PC.map, List.length_map, h.mq]
    split
    · cases mq <;> rfl
    · rfl
  | dropS =>
    simp only [Proc.step, Proc.map, PC.map, List.length_map, h.mq]
    split
    · cases sq <;> rfl
    · rfl
  | chkM =>
    simp only [Proc.step, Proc.map, PC.map, List.length_map, h.bs]
    split <;> rfl
  | gatherM b =>
    simp only [Proc.step, Proc.map, PC.map, List.length_map, h.bs]
    split
    · cases mq with
      | nil => rfl
      | cons d q => simp [PC.map, Effect.map]
    · rw [reduceBatch_map f c.red c'.red h.red, h.mg, h.names, gmap_keys]
      split
      · split <;> rfl
      · rfl
  | chkS =>
    simp only [Proc.step, Proc.map, PC.map, List.length_map, h.bs]
    split <;> rfl
  | gatherS b =>
    simp only [Proc.step, Proc.map, PC.map, List.length_map, h.bs]
    split
    · cases sq with
      | nil => rfl
      | cons d q => simp [PC.map, Effect.map]
    · rw [reduceBatch_map f c.red c'.red h.red]
      rfl
  | send d => rfl
  | dead => rfl

theorem map_modify {A B : Type} (f : A → B) (g : A → A) (g' : B → B) (hg : ∀ a, g' (f a) = f (g a)) (l : List A) (i : Nat) :
    (l.map f).modify i g' = (l.modify i g).map f := by
  apply List.ext_getElem?
  intro j
  simp only [List.getElem?_modify, List.getElem?_map]
  cases l[j]? with
  | none => rfl
  | some a =>
    simp only [Option.map_some, Functor.map]
    split
    · rw [hg]
    · rfl

theorem World.effect_map (f : M → M') (w : World M) (e : Effect M) : (w.map f).effect (e.map f) = (w.effect e).map f := by
  cases e with
  | none => rfl
  | discard d => simp [World.effect, World.map, Effect.map]
  | apply d => simp [World.effect, World.map, Effect.map]
  | lose d => simp [World.effect, World.map, Effect.map]
  | send d =>
    simp only [World.effect, World.map, Effect.map]
    rw [map_modify (Proc.map f) (·.pushM d) (·.pushM (gmap f d))]
    intro a
    simp [Proc.pushM, Proc.map]

theorem World.step_map {f : M → M'} {c : GCfg M} {c' : GCfg M'} (h : Fits f c c') (w : World M) (a : GAct M) :
    (w.map f).step c' (a.map f) = (w.step c a).map f := by
  cases a with
  | push i g =>
    simp only [World.step, GAct.map, World.map]
    rw [map_modify (Proc.map f) (·.pushS g) (·.pushS (gmap f g))]
    intro a
    simp [Proc.pushS, Proc.map]
  | thread i =>
    simp only [World.step, GAct.map]
    have e : (w.map f).procs[i]? = (w.procs[i]?).map (Proc.map f) := by simp [World.map]
    rw [e]
    cases w.procs[i]? with
    | none => rfl
    | some p =>
      simp only [Option.map_some]
      rw [Proc.step_map h, ← World.effect_map]
      simp [World.map, List.map_set]

/-- A run on mapped values is the mapped run. -/
theorem World.run_map {f : M → M'} {c : GCfg M} {c' : GCfg M'} (h : Fits f c c') (as : List (GAct M)) (w : World M) :
    (w.map f).run c' (as.map (GAct.map f)) = (w.run c as).map f := by
  unfold World.run
  induction as generalizing w with
  | nil => rfl
  | cons a as ih => rw [List.map_cons, List.foldl_cons, List.foldl_cons, World.step_map h, ih]

theorem World.init_map (f : M → M') (n primary : Nat) : (World.init n primary : World M).map f = World.init n primary := by
  simp [World.init, World.map, Proc.map, PC.map]

end Machin.Server
