import Verif.Algo.Reported
import Verif.Algo.PropsSched

/-!
# C260: the schedulers that algorithms report

C260: `lr_schedulers` reports every scheduler of the algorithm once, and the scheduler at position `i` is that of the optimizer at position `i` of `optimizers`.
**The code violates it**: MADDPG lists its optimizers with the critics first and its schedulers with the actors first; GAIL with a scheduler of its own only
reports the scheduler of the discriminator at the position of the actor.
-/

namespace Machin.Algo

/-- Two lists fit: what is reported at a position belongs to the slot at that position. -/
def Aligned (schs : List Sch) (slots : List Slot) : Prop := ∀ (i : Nat) (x : Sch), schs[i]? = some x → slots[i]? = some x.slot

/-- C260 in full. -/
def C260_full : Prop :=
  (∀ (a : SAlgo) args kwargs schs, buildSchs a args kwargs = .ok schs → lrSchedulers a schs = schs ∧ Aligned (lrSchedulers a schs) a.optimSlots) ∧
  (∀ (subs : List Nat) (critics : Nat) args kwargs, Aligned (lrSchedulersMaddpg (buildMaddpg subs critics args kwargs)) (optimSlotsMaddpg subs critics))

/-- **C260 is violated** by GAIL: its own scheduler stands where the optimizer of the actor stands. -/
theorem C260_violated : ¬ C260_full := by
  intro h
  have := (h.1 .gail none none _ rfl).2 0 ⟨.discriminator, [], [], 0⟩ (by decide)
  revert this
  decide

theorem foldl_append_flatMap {α β : Type} (f : β → List α) (l : List β) : ∀ acc : List α, (l.foldl (fun l e => l ++ f e) acc) = acc ++ l.flatMap f := by
  induction l with
  | nil => simp
  | cons b l ih => intro acc; rw [List.foldl_cons, ih]; simp

/-- **C260 is violated** by MADDPG for all numbers of agents: the first scheduler is one of an actor, the first optimizer is that of the first critic. -/
theorem C260_violated_maddpg (n : Nat) (subs : List Nat) (critics : Nat) :
    (lrSchedulersMaddpg (buildMaddpg ((n + 1) :: subs) (critics + 1) none none))[0]?.map (fun x => x.slot) = some (.actorOf 0 0) ∧
    (optimSlotsMaddpg ((n + 1) :: subs) (critics + 1))[0]? = some (.criticOf 0) ∧
    ¬ Aligned (lrSchedulersMaddpg (buildMaddpg ((n + 1) :: subs) (critics + 1) none none)) (optimSlotsMaddpg ((n + 1) :: subs) (critics + 1)) := by
  have h1 : (lrSchedulersMaddpg (buildMaddpg ((n + 1) :: subs) (critics + 1) none none))[0]? = some ⟨.actorOf 0 0, [], [], 0⟩ := by
    simp [lrSchedulersMaddpg, buildMaddpg, List.range_succ_eq_map, List.replicate_succ]
  have h2 : (optimSlotsMaddpg ((n + 1) :: subs) (critics + 1))[0]? = some (.criticOf 0) := by
    unfold optimSlotsMaddpg
    rw [foldl_append_flatMap]
    simp [List.range_succ_eq_map]
  refine ⟨by rw [h1]; rfl, h2, fun h => ?_⟩
  have := h 0 _ h1
  rw [h2] at this
  cases this

/-- Lists with the slots of a plan, at any number of steps. -/
theorem reported_of_slots (a : SAlgo) (schs : List Sch) (h : schs.map (fun x => x.slot) = a.plan.map fun p => p.1) : lrSchedulers a schs = schs := by
  cases a <;>
    (simp only [SAlgo.plan, List.map_cons, List.map_nil, List.map_eq_cons_iff, List.map_eq_nil_iff] at h
     obtain ⟨x, l, rfl, hx, h⟩ := h
     first
       | (obtain ⟨y, l, rfl, hy, z, l, rfl, hz, w, l, rfl, hw, rfl⟩ := h)
       | (obtain ⟨y, l, rfl, hy, z, l, rfl, hz, rfl⟩ := h)
       | (obtain ⟨y, l, rfl, hy, rfl⟩ := h)
       | subst h
     simp [lrSchedulers, SAlgo.blocks, attr, *])

/-- **C260** (partial), what holds: whatever the arguments and however often the schedulers were stepped, every scheduler is reported once, in the order of
creation, and nothing else; without schedulers nothing is reported. -/
theorem C260_reported_partial (a : SAlgo) (args : Option (List (List Nat))) (kwargs : Option (List (List (String × Nat)))) (schs : List Sch)
    (h : buildSchs a args kwargs = .ok schs) (n : Nat) :
    lrSchedulers a (iter (updateLr a) n schs) = iter (updateLr a) n schs ∧ lrSchedulers a [] = [] := by
  constructor
  · apply reported_of_slots
    rw [C99_counts_partial, List.map_map]
    exact (buildPlan_slots h).1
  · cases a <;> decide

theorem aligned_of_eq {schs : List Sch} {slots : List Slot} (h : schs.map (fun x => x.slot) = slots) : Aligned schs slots := by
  intro i x hx
  rw [← h, List.getElem?_map, hx]
  rfl

/-- **C260** (partial): for all algorithms but GAIL and MADDPG there are as many schedulers as optimizers, and they fit. -/
theorem C260_fits_partial (a : SAlgo) (ha : a ≠ .gail) (args : Option (List (List Nat))) (kwargs : Option (List (List (String × Nat)))) (schs : List Sch)
    (h : buildSchs a args kwargs = .ok schs) :
    (lrSchedulers a schs).map (fun x => x.slot) = a.optimSlots ∧ Aligned (lrSchedulers a schs) a.optimSlots := by
  have h1 := (buildPlan_slots h).1
  have h2 : (lrSchedulers a schs).map (fun x => x.slot) = a.optimSlots := by
    rw [reported_of_slots a schs h1, h1]
    cases a <;> first | rfl | exact absurd rfl ha
  exact ⟨h2, aligned_of_eq h2⟩

/-- **C260** (partial) for GAIL: with schedulers of both parts all three are reported and fit; with those of the policy optimisation only, these are reported and
fit. -/
theorem C260_gail_partial (a : SAlgo) (ha : a = .ppo ∨ a = .trpo) (args args' : Option (List (List Nat))) (kwargs kwargs' : Option (List (List (String × Nat))))
    (inner own : List Sch) (hi : buildSchs a args kwargs = .ok inner) (ho : buildSchs .gail args' kwargs' = .ok own) :
    lrSchedulers .gail (gailSchs inner own) = gailSchs inner own ∧ Aligned (lrSchedulers .gail (gailSchs inner own)) (SAlgo.optimSlots .gail) ∧
    lrSchedulers .gail (gailSchs inner []) = inner ∧ Aligned (lrSchedulers .gail (gailSchs inner [])) (SAlgo.optimSlots .gail) := by
  have h1 : inner.map (fun x => x.slot) = [.actor, .critic] := by
    rw [(buildPlan_slots hi).1]
    rcases ha with rfl | rfl <;> rfl
  have h2 : own.map (fun x => x.slot) = [.discriminator] := (buildPlan_slots ho).1
  simp only [List.map_eq_cons_iff, List.map_eq_nil_iff] at h1 h2
  obtain ⟨x, l, rfl, hx, y, l', rfl, hy, rfl⟩ := h1
  obtain ⟨z, l, rfl, hz, rfl⟩ := h2
  have e1 : lrSchedulers .gail (gailSchs [x, y] [z]) = [x, y, z] := by simp [lrSchedulers, SAlgo.blocks, attr, gailSchs, *]
  have e2 : lrSchedulers .gail (gailSchs [x, y] []) = [x, y] := by simp [lrSchedulers, SAlgo.blocks, attr, gailSchs, *]
  refine ⟨e1, ?_, e2, ?_⟩
  · rw [e1]
    exact aligned_of_eq (by simp [hx, hy, hz, SAlgo.optimSlots])
  · rw [e2]
    intro i w hw
    match i, hw with
    | 0, hw => simp at hw; subst hw; simp [hx, SAlgo.optimSlots]
    | 1, hw => simp at hw; subst hw; simp [hy, SAlgo.optimSlots]
    | i + 2, hw => simp at hw

/-- **C260** (partial) for MADDPG without arguments: the schedulers are those of all optimizers, each once; the two lists differ in the order only (actors first,
critics first). -/
theorem C260_maddpg_partial (subs : List Nat) (critics : Nat) :
    ∃ actors cs : List Slot, (lrSchedulersMaddpg (buildMaddpg subs critics none none)).map (fun x => x.slot) = actors ++ cs ∧
      optimSlotsMaddpg subs critics = cs ++ actors ∧ cs = (List.range critics).map .criticOf ∧
      actors = ((List.range subs.length).zip subs).flatMap fun e => (List.range e.2).map fun j => .actorOf e.1 j := by
  refine ⟨_, _, ?_, ?_, rfl, rfl⟩
  · have h1 : ∀ (subs r : List Nat),
        ((r.zip (subs.zip ((List.replicate subs.length ([] : List Nat)).zip (List.replicate subs.length ([] : List (String × Nat)))))).flatMap fun e =>
          (List.range e.2.1).map fun j => (⟨.actorOf e.1 j, e.2.2.1.map .val ++ e.2.2.2.map fun kv => .key kv.1, [], 0⟩ : Sch)).map (fun x => x.slot) =
        (r.zip subs).flatMap fun e => (List.range e.2).map fun j => .actorOf e.1 j := by
      intro subs
      induction subs with
      | nil => intro r; simp
      | cons m subs ih =>
        intro r
        cases r with
        | nil => rfl
        | cons k r =>
          have := ih r
          simp only [List.length_cons, List.replicate_succ, List.zip_cons_cons, List.flatMap_cons, List.map_append, this]
          simp
    have h2 : ∀ (n : Nat) (r : List Nat), r.length = n →
        ((r.zip ((List.replicate n ([] : List Nat)).zip (List.replicate n ([] : List (String × Nat))))).map fun e =>
          (⟨.criticOf e.1, e.2.1.map .val ++ e.2.2.map fun kv => .key kv.1, [], 0⟩ : Sch)).map (fun x => x.slot) = r.map .criticOf := by
      intro n
      induction n with
      | zero => intro r hr; simp [List.eq_nil_of_length_eq_zero hr]
      | succ n ih =>
        intro r hr
        cases r with
        | nil => cases hr
        | cons k r =>
          have := ih r (by simpa using hr)
          simp only [List.replicate_succ, List.zip_cons_cons, List.map_cons, this]
    simp only [lrSchedulersMaddpg, buildMaddpg, Option.getD_none, List.map_append]
    rw [h1 subs (List.range subs.length), h2 critics (List.range critics) (by simp)]
  · unfold optimSlotsMaddpg
    rw [foldl_append_flatMap]

example : ∃ schs, buildSchs .sac (some [[1], [2], [3]]) none = .ok schs ∧ (lrSchedulers .sac (iter (updateLr .sac) 3 schs)).map (fun x => (x.slot, x.steps)) =
    [(.actor, 3), (.critic, 3), (.critic2, 0), (.alpha, 0)] := ⟨_, rfl, by decide⟩

example : (lrSchedulersMaddpg (buildMaddpg [1, 2] 2 none none)).map (fun x => x.slot) =
    [.actorOf 0 0, .actorOf 1 0, .actorOf 1 1, .criticOf 0, .criticOf 1] ∧
    optimSlotsMaddpg [1, 2] 2 = [.criticOf 0, .criticOf 1, .actorOf 0 0, .actorOf 1 0, .actorOf 1 1] := by decide

end Machin.Algo
