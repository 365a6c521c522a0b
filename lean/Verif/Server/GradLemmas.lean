import Mathlib.Tactic.Abel
import Mathlib.Tactic.Tauto
import Mathlib.Data.List.Induction
import Verif.Server.GradSpec

/-! # Helper lemmas on the gradient server -/

namespace Machin.Server

open Spec

section
variable {M : Type}

theorem get?_map_snd {β γ : Type} (d : PyDict String β) (f : β → γ) (k : String) :
    PyDict.get? (d.map fun kv => (kv.1, f kv.2)) k = (d.get? k).map f := by
  induction d with
  | nil => rfl
  | cons a d ih =>
    rw [List.map_cons, PyDict.get?_cons, PyDict.get?_cons, ih]
    split <;> rfl

theorem keys_map_snd {β γ : Type} (d : PyDict String β) (f : β → γ) :
    PyDict.keys (d.map fun kv => (kv.1, f kv.2)) = d.keys := by
  simp [PyDict.keys]

theorem addItem_get? (acc : PyDict String (List M)) (kv : String × M) (k : String) :
    ((addItem acc kv).get? k).getD [] = (acc.get? k).getD [] ++ (if kv.1 = k then [kv.2] else []) := by
  unfold addItem
  split
  · rename_i h
    rw [PyDict.get?_set]
    by_cases hk : k = kv.1
    · subst hk; simp [h]
    · simp [hk, Ne.symm hk]
  · rename_i l h
    rw [PyDict.get?_set]
    by_cases hk : k = kv.1
    · subst hk; simp [h]
    · simp [hk, Ne.symm hk]

theorem addGrad_get? (acc : PyDict String (List M)) (g : Grad M) (hg : g.WF) (k : String) :
    ((addGrad acc g).get? k).getD [] = (acc.get? k).getD [] ++ (g.get? k).toList := by
  unfold addGrad
  induction g generalizing acc with
  | nil => simp
  | cons a g ih =>
    have hwf : PyDict.WF g := by
      unfold PyDict.WF PyDict.keys at hg ⊢
      exact (List.nodup_cons.mp hg).2
    rw [List.foldl_cons, ih _ hwf, addItem_get?, PyDict.get?_cons]
    by_cases hk : a.1 = k
    · have : PyDict.get? g k = none := by
        rw [PyDict.get?_eq_none_iff, ← hk]
        unfold PyDict.WF PyDict.keys at hg
        exact (List.nodup_cons.mp hg).1
      simp [hk, this]
    · simp [hk]

theorem addItem_keys (acc : PyDict String (List M)) (kv : String × M) (k : String) :
    k ∈ (addItem acc kv).keys ↔ k = kv.1 ∨ k ∈ acc.keys := by
  unfold addItem
  split <;>
  · rw [← PyDict.get?_isSome_iff, PyDict.get?_set, ← PyDict.get?_isSome_iff]
    by_cases h : k = kv.1 <;> simp [h]

theorem addGrad_keys (acc : PyDict String (List M)) (g : Grad M) (k : String) :
    k ∈ (addGrad acc g).keys ↔ k ∈ g.keys ∨ k ∈ acc.keys := by
  unfold addGrad
  induction g generalizing acc with
  | nil => simp [PyDict.keys]
  | cons a g ih =>
    rw [List.foldl_cons, ih, addItem_keys]
    simp only [PyDict.keys, List.map_cons, List.mem_cons]
    tauto

theorem collect_get? (acc : PyDict String (List M)) (batch : List (Grad M)) (hb : ∀ g ∈ batch, PyDict.WF g) (k : String) :
    ((batch.foldl addGrad acc).get? k).getD [] = (acc.get? k).getD [] ++ batch.filterMap fun g => g.get? k := by
  induction batch generalizing acc with
  | nil => simp
  | cons g batch ih =>
    rw [List.foldl_cons, ih _ fun x hx => hb x (by simp [hx]), addGrad_get? _ _ (hb g (by simp))]
    rw [List.filterMap_cons]
    rcases g.get? k with _ | x <;> simp

theorem collect_keys (acc : PyDict String (List M)) (batch : List (Grad M)) (k : String) :
    k ∈ (batch.foldl addGrad acc).keys ↔ (∃ g ∈ batch, k ∈ PyDict.keys g) ∨ k ∈ acc.keys := by
  induction batch generalizing acc with
  | nil => simp
  | cons g batch ih =>
    rw [List.foldl_cons, ih, addGrad_keys]
    simp only [List.mem_cons, exists_eq_or_imp]
    rw [← or_assoc, or_comm (a := ∃ g, g ∈ batch ∧ k ∈ PyDict.keys g)]

theorem addItem_wf {acc : PyDict String (List M)} (h : acc.WF) (kv : String × M) : (addItem acc kv).WF := by
  unfold addItem
  split <;> exact h.set _ _

theorem addGrad_wf {acc : PyDict String (List M)} (h : acc.WF) (g : Grad M) : (addGrad acc g).WF := by
  unfold addGrad
  induction g generalizing acc with
  | nil => exact h
  | cons a g ih => exact ih (addItem_wf h a)

theorem reduceBatch_wf (red : List M → M) (batch : List (Grad M)) : (reduceBatch red batch).WF := by
  have : ∀ acc : PyDict String (List M), acc.WF → (batch.foldl addGrad acc).WF := by
    induction batch with
    | nil => exact fun _ h => h
    | cons g batch ih => exact fun acc h => ih _ (addGrad_wf h g)
  unfold reduceBatch PyDict.WF
  rw [keys_map_snd]
  exact this [] (by simp [PyDict.WF, PyDict.keys])

/-- The reduced dictionary has a name exactly if some dictionary of the batch has it. -/
theorem reduceBatch_keys (red : List M → M) (batch : List (Grad M)) (k : String) :
    k ∈ (reduceBatch red batch).keys ↔ ∃ g ∈ batch, k ∈ PyDict.keys g := by
  unfold reduceBatch
  rw [keys_map_snd, collect_keys]
  simp [PyDict.keys]

/-- The value of a name is the reduction of the values of the dictionaries that have it. -/
theorem reduceBatch_get? (red : List M → M) (batch : List (Grad M)) (hb : ∀ g ∈ batch, PyDict.WF g) (k : String)
    (hk : ∃ g ∈ batch, k ∈ PyDict.keys g) :
    (reduceBatch red batch).get? k = some (red (batch.filterMap fun g => g.get? k)) := by
  unfold reduceBatch
  rw [get?_map_snd]
  have h1 := collect_get? [] batch hb k
  have h2 : k ∈ (batch.foldl addGrad []).keys := (collect_keys [] batch k).mpr (.inl hk)
  rw [← PyDict.get?_isSome_iff] at h2
  obtain ⟨l, hl⟩ := Option.isSome_iff_exists.mp h2
  rw [hl] at h1 ⊢
  simp only [Option.getD_some, PyDict.get?_nil, Option.getD_none, List.nil_append] at h1
  simp [h1]

end

variable {M : Type} [AddCommMonoid M]

theorem total_append (k : String) (a b : List (Grad M)) : total k (a ++ b) = total k a + total k b := by
  simp [total]

theorem total_cons (k : String) (a : Grad M) (b : List (Grad M)) : total k (a :: b) = amount k a + total k b := by
  simp [total]

@[simp] theorem total_nil (k : String) : total k ([] : List (Grad M)) = 0 := rfl

theorem total_eq (k : String) (gs : List (Grad M)) : total k gs = (gs.filterMap fun g => g.get? k).sum := by
  induction gs with
  | nil => rfl
  | cons g gs ih =>
    rw [total_cons, ih, List.filterMap_cons, amount]
    rcases g.get? k with _ | x <;> simp

/-- With the sum reduction, the reduced dictionary holds the total of the batch. -/
theorem amount_reduceBatch (batch : List (Grad M)) (hb : ∀ g ∈ batch, PyDict.WF g) (k : String) :
    amount k (reduceBatch List.sum batch) = total k batch := by
  by_cases hk : ∃ g ∈ batch, k ∈ PyDict.keys g
  · rw [amount, reduceBatch_get? _ _ hb _ hk, total_eq]; rfl
  · have h1 : (reduceBatch List.sum batch).get? k = none := by
      rw [PyDict.get?_eq_none_iff, reduceBatch_keys]; exact hk
    have h2 : (batch.filterMap fun g => g.get? k) = [] := by
      rw [List.filterMap_eq_nil_iff]
      intro g hg
      rw [PyDict.get?_eq_none_iff]
      exact fun h => hk ⟨g, hg, h⟩
    rw [amount, h1, total_eq, h2]; rfl

/-- Replacing an element of a list changes a sum over it accordingly. -/
theorem exists_rest {α : Type} (l : List α) (f : α → M) (i : Nat) (a : α) (h : l[i]? = some a) :
    ∃ r, (l.map f).sum = r + f a ∧ ∀ x, ((l.set i x).map f).sum = r + f x := by
  induction l generalizing i with
  | nil => simp at h
  | cons b l ih =>
    cases i with
    | zero =>
      simp only [List.getElem?_cons_zero, Option.some.injEq] at h
      subst h
      exact ⟨(l.map f).sum, by simp [add_comm], fun x => by simp [add_comm]⟩
    | succ i =>
      obtain ⟨r, h1, h2⟩ := ih i (by simpa using h)
      exact ⟨f b + r, by simp [h1, add_assoc], fun x => by
        rw [List.set_cons_succ, List.map_cons, List.sum_cons, h2, add_assoc]⟩

theorem modify_eq_set {α : Type} (l : List α) (f : α → α) (i : Nat) (a : α) (h : l[i]? = some a) :
    l.modify i f = l.set i (f a) := by
  apply List.ext_getElem?
  intro j
  rw [List.getElem?_modify, List.getElem?_set]
  by_cases hj : i = j
  · subst hj
    obtain ⟨h1, h2⟩ := List.getElem?_eq_some_iff.mp h
    simp [h1, h2]
  · simp [hj]

theorem modify_none {α : Type} (l : List α) (f : α → α) (i : Nat) (h : l[i]? = none) : l.modify i f = l := by
  apply List.ext_getElem?
  intro j
  rw [List.getElem?_modify]
  by_cases hj : i = j
  · subst hj; simp [h]
  · simp [hj]

/-- The totals of a world. -/
def World.held (w : World M) (k : String) : M := (w.procs.map fun p => total k (pending p)).sum

/-- All gradients in a list are dictionaries with distinct names. -/
def AllWF {M : Type} (gs : List (Grad M)) : Prop := ∀ g ∈ gs, PyDict.WF g

theorem pending_pushM (p : Proc M) (d : Grad M) (k : String) :
    total k (pending (p.pushM d)) = total k (pending p) + amount k d := by
  simp only [pending, Proc.pushM, total_append, total_cons, total_nil]
  abel

theorem pending_pushS (p : Proc M) (d : Grad M) (k : String) :
    total k (pending (p.pushS d)) = total k (pending p) + amount k d := by
  simp only [pending, Proc.pushS, total_append, total_cons, total_nil]
  abel

/-- What an effect takes out of a member. -/
def Effect.out : Effect M → List (Grad M)
  | .none => []
  | .discard d => [d]
  | .apply d => [d]
  | .lose d => [d]
  | .send d => [d]

/-- A thread step conserves the totals. -/
theorem Proc.step_total {cfg : GCfg M} (hred : cfg.red = List.sum) {p : Proc M} (hp : AllWF (pending p)) (k : String) :
    total k (pending p) = total k (pending (p.step cfg).1) + total k (p.step cfg).2.out := by
  obtain ⟨mq, sq, pc⟩ := p
  cases pc with
  | idle =>
    simp only [Proc.step]
    split <;> simp [Effect.out, pending, inFlight]
  | dropM =>
    simp only [Proc.step]
    split
    · cases mq with
      | nil => simp [Effect.out]
      | cons d q =>
        simp only [Effect.out, pending, inFlight, total_append, total_cons, total_nil]; abel
    · simp [Effect.out, pending, inFlight]
  | dropS =>
    simp only [Proc.step]
    split
    · cases sq with
      | nil => simp [Effect.out]
      | cons d q =>
        simp only [Effect.out, pending, inFlight, total_append, total_cons, total_nil]; abel
    · simp [Effect.out, pending, inFlight]
  | chkM =>
    simp only [Proc.step]
    split <;> simp [Effect.out, pending, inFlight]
  | gatherM b =>
    have hb : ∀ g ∈ b, PyDict.WF g := fun g hg => hp g (by simp [pending, inFlight, hg])
    simp only [Proc.step]
    split
    · cases mq with
      | nil => simp [Effect.out]
      | cons d q =>
        simp only [Effect.out, pending, inFlight, total_append, total_cons, total_nil]; abel
    · have h1 := amount_reduceBatch b hb k
      rw [hred]
      split
      · split <;>
        · simp only [Effect.out, pending, inFlight, total_append, total_cons, total_nil, h1]; abel
      · simp only [Effect.out, pending, inFlight, total_append, total_cons, total_nil, h1]; abel
  | chkS =>
    simp only [Proc.step]
    split <;> simp [Effect.out, pending, inFlight]
  | gatherS b =>
    have hb : ∀ g ∈ b, PyDict.WF g := fun g hg => hp g (by simp [pending, inFlight, hg])
    simp only [Proc.step]
    split
    · cases sq with
      | nil => simp [Effect.out]
      | cons d q =>
        simp only [Effect.out, pending, inFlight, total_append, total_cons, total_nil]; abel
    · have h1 := amount_reduceBatch b hb k
      rw [hred]
      simp only [Effect.out, pending, inFlight, total_append, total_cons, total_nil, h1]; abel
  | send d =>
    simp only [Proc.step, Effect.out, pending, inFlight, total_append, total_cons, total_nil]; abel
  | dead => simp [Proc.step, Effect.out]

/-- Every dictionary held after a thread step was held before it, or is a reduced batch of such. -/
theorem Proc.step_mem {cfg : GCfg M} {p : Proc M} {g : Grad M}
    (hg : g ∈ pending (p.step cfg).1 ++ (p.step cfg).2.out) :
    g ∈ pending p ∨ ∃ b, (p.pc = .gatherM b ∨ p.pc = .gatherS b) ∧ ¬ b.length < cfg.batchSize ∧
      g = reduceBatch cfg.red b := by
  obtain ⟨mq, sq, pc⟩ := p
  cases pc with
  | idle =>
    simp only [Proc.step] at hg
    split at hg <;> (left; simpa [Effect.out, pending, inFlight] using hg)
  | dropM =>
    simp only [Proc.step] at hg
    split at hg
    · cases mq with
      | nil => left; simpa [Effect.out, pending, inFlight] using hg
      | cons d q => left; simp [Effect.out, pending, inFlight] at hg ⊢; tauto
    · left; simpa [Effect.out, pending, inFlight] using hg
  | dropS =>
    simp only [Proc.step] at hg
    split at hg
    · cases sq with
      | nil => left; simpa [Effect.out, pending, inFlight] using hg
      | cons d q => left; simp [Effect.out, pending, inFlight] at hg ⊢; tauto
    · left; simpa [Effect.out, pending, inFlight] using hg
  | chkM =>
    simp only [Proc.step] at hg
    split at hg <;> (left; simpa [Effect.out, pending, inFlight] using hg)
  | gatherM b =>
    simp only [Proc.step] at hg
    split at hg
    · cases mq with
      | nil => left; simpa [Effect.out, pending, inFlight] using hg
      | cons d q => left; simp [Effect.out, pending, inFlight] at hg ⊢; tauto
    · rename_i hlen
      split at hg
      · split at hg
        all_goals
          simp [Effect.out, pending, inFlight] at hg ⊢
          rcases hg with hg | hg | hg
          · tauto
          · tauto
          · exact .inr ⟨by omega, hg⟩
      · simp [Effect.out, pending, inFlight] at hg ⊢
        rcases hg with hg | hg | hg
        · tauto
        · tauto
        · exact .inr ⟨by omega, hg⟩
  | chkS =>
    simp only [Proc.step] at hg
    split at hg <;> (left; simpa [Effect.out, pending, inFlight] using hg)
  | gatherS b =>
    simp only [Proc.step] at hg
    split at hg
    · cases sq with
      | nil => left; simpa [Effect.out, pending, inFlight] using hg
      | cons d q => left; simp [Effect.out, pending, inFlight] at hg ⊢; tauto
    · rename_i hlen
      simp [Effect.out, pending, inFlight] at hg ⊢
      rcases hg with hg | hg | hg
      · tauto
      · tauto
      · exact .inr ⟨by omega, hg⟩
  | send d =>
    left
    simp [Proc.step, Effect.out, pending, inFlight] at hg ⊢; tauto
  | dead => left; simpa [Proc.step, Effect.out] using hg

/-- All dictionaries held by a world satisfy `P`. -/
def World.All (w : World M) (P : Grad M → Prop) : Prop := ∀ p ∈ w.procs, ∀ g ∈ pending p, P g

theorem mem_set_iff_weak {α : Type} {l : List α} {i : Nat} {x y : α} (h : y ∈ l.set i x) : y = x ∨ y ∈ l := by
  rcases List.mem_or_eq_of_mem_set h with h | h
  · exact .inr h
  · exact .inl h

theorem All.push {P : Grad M → Prop} {l : List (Proc M)} (h : ∀ p ∈ l, ∀ g ∈ pending p, P g) (i : Nat) (d : Grad M)
    (hd : P d) (f : Proc M → Proc M) (hf : f = (·.pushM d) ∨ f = (·.pushS d)) :
    ∀ p ∈ l.modify i f, ∀ g ∈ pending p, P g := by
  intro p hp g hg
  rcases hi : l[i]? with _ | a
  · rw [modify_none _ _ _ hi] at hp
    exact h p hp g hg
  · rw [modify_eq_set _ _ _ _ hi] at hp
    rcases mem_set_iff_weak hp with rfl | hp
    · have ha : a ∈ l := List.mem_of_getElem? hi
      have : g ∈ pending a ∨ g = d := by
        rcases hf with rfl | rfl
        · simp [pending, Proc.pushM] at hg ⊢; tauto
        · simp [pending, Proc.pushS] at hg ⊢; tauto
      rcases this with hg | rfl
      · exact h a ha g hg
      · exact hd
    · exact h p hp g hg

/-- A property of dictionaries that batches preserve holds for all dictionaries the system ever handles. -/
theorem World.step_all {cfg : GCfg M} {P : Grad M → Prop} (hbs : 0 < cfg.batchSize)
    (hP : ∀ b : List (Grad M), b ≠ [] → (∀ g ∈ b, P g) → P (reduceBatch cfg.red b)) {w : World M} (hw : w.All P) (a : GAct M)
    (ha : ∀ i g, a = .push i g → P g) : (w.step cfg a).All P := by
  unfold World.All at *
  cases a with
  | push i g => exact All.push hw i g (ha i g rfl) _ (.inr rfl)
  | thread i =>
    simp only [World.step]
    rcases hi : w.procs[i]? with _ | p
    · exact hw
    · simp only
      have hp : p ∈ w.procs := List.mem_of_getElem? hi
      have hout : ∀ g ∈ pending (p.step cfg).1 ++ (p.step cfg).2.out, P g := by
        intro g hg
        rcases Proc.step_mem hg with hg | ⟨b, hb, hlen, rfl⟩
        · exact hw p hp g hg
        · refine hP b (by rintro rfl; simp at hlen; omega) fun g hg => hw p hp g ?_
          rcases hb with hb | hb <;> simp [pending, inFlight, hb, hg]
      have hset : ∀ q ∈ w.procs.set i (p.step cfg).1, ∀ g ∈ pending q, P g := by
        intro q hq g hg
        rcases mem_set_iff_weak hq with rfl | hq
        · exact hout g (by simp [hg])
        · exact hw q hq g hg
      rcases he : (p.step cfg).2 with _ | d | d | d | d
      all_goals simp only [World.effect]
      · exact hset
      · exact hset
      · exact hset
      · exact hset
      · exact All.push hset _ _ (hout d (by simp [he, Effect.out])) _ (.inl rfl)

theorem World.held_modify (l : List (Proc M)) (i : Nat) (d : Grad M) (k : String) (f : Proc M → Proc M)
    (hf : f = (·.pushM d) ∨ f = (·.pushS d)) (hi : i < l.length) :
    ((l.modify i f).map fun p => total k (pending p)).sum = (l.map fun p => total k (pending p)).sum + amount k d := by
  have h0 : l[i]? = some l[i] := List.getElem?_eq_getElem hi
  obtain ⟨r, h1, h2⟩ := exists_rest l (fun p => total k (pending p)) i _ h0
  rw [modify_eq_set _ _ _ _ h0, h2, h1]
  rcases hf with rfl | rfl
  · simp only [pending_pushM]; abel
  · simp only [pending_pushS]; abel

theorem World.step_length (cfg : GCfg M) (w : World M) (a : GAct M) :
    (w.step cfg a).procs.length = w.procs.length ∧ (w.step cfg a).primary = w.primary := by
  cases a with
  | push i g => simp [World.step]
  | thread i =>
    simp only [World.step]
    split
    · simp
    · rename_i p hp
      rcases (p.step cfg).2 with _ | d | d | d | d <;> simp [World.effect]

/-- One step conserves the totals. -/
theorem World.step_total {cfg : GCfg M} (hred : cfg.red = List.sum) {w : World M} (hw : w.All PyDict.WF)
    (hprim : w.primary < w.procs.length) (a : GAct M) (k : String) :
    total k (w.step cfg a).applied + total k (w.step cfg a).discarded + total k (w.step cfg a).lost +
        (w.step cfg a).held k =
      total k w.applied + total k w.discarded + total k w.lost + w.held k + total k (pushed w.procs.length [a]) := by
  cases a with
  | push i g =>
    simp only [World.step, World.held, pushed]
    by_cases hi : i < w.procs.length
    · rw [World.held_modify _ _ g _ _ (.inr rfl) hi, if_pos hi, total_cons, total_nil]
      abel
    · rw [modify_none _ _ _ (List.getElem?_eq_none (by omega)), if_neg hi, total_nil]
      abel
  | thread i =>
    simp only [World.step, pushed, total_nil]
    rcases hi : w.procs[i]? with _ | p
    · simp
    · simp only
      have hp : p ∈ w.procs := List.mem_of_getElem? hi
      have h0 := Proc.step_total hred (cfg := cfg) (p := p) (fun g hg => hw p hp g hg) k
      obtain ⟨r, h1, h2⟩ := exists_rest w.procs (fun p => total k (pending p)) i _ hi
      rcases he : (p.step cfg).2 with _ | d | d | d | d
      all_goals
        rw [he] at h0
        simp only [Effect.out, total_cons, total_nil] at h0
        simp only [World.effect, World.held, total_append, total_cons, total_nil]
      · rw [h1, h2, h0]; abel
      · rw [h1, h2, h0]; abel
      · rw [h1, h2, h0]; abel
      · rw [h1, h2, h0]; abel
      · rw [World.held_modify _ _ d _ _ (.inl rfl) (by simpa using hprim), h1, h2, h0]; abel

theorem pushed_append (n : Nat) (as bs : List (GAct M)) : pushed n (as ++ bs) = pushed n as ++ pushed n bs := by
  induction as with
  | nil => rfl
  | cons a as ih =>
    cases a with
    | push i g => simp only [List.cons_append, pushed, ih]; split <;> simp
    | thread i => simpa [pushed] using ih

/-- Nothing is lost while the model is managed and every dictionary has all its parameters. -/
theorem World.step_lost {cfg : GCfg M} (hm : cfg.managed = true) (hbs : 0 < cfg.batchSize) {w : World M}
    (hw : w.All fun g => ∀ k ∈ cfg.modelKeys, k ∈ g.keys) (a : GAct M) : (w.step cfg a).lost = w.lost := by
  cases a with
  | push i g => rfl
  | thread i =>
    simp only [World.step]
    split
    · rfl
    · rename_i p hp
      have hp' : p ∈ w.procs := List.mem_of_getElem? hp
      rcases he : (p.step cfg).2 with _ | d | d | d | d
      all_goals simp only [World.effect]
      exfalso
      obtain ⟨mq, sq, pc⟩ := p
      cases pc with
      | gatherM b =>
        have hb : ∀ g ∈ b, ∀ k ∈ cfg.modelKeys, k ∈ PyDict.keys g := fun g hg =>
          hw _ hp' g (by simp [pending, inFlight, hg])
        simp only [Proc.step] at he
        split at he
        · cases mq <;> cases he
        · rename_i hlen
          split at he
          · cases he
          · rename_i hk
            apply hk
            intro k hkm
            rw [reduceBatch_keys]
            rcases b with _ | ⟨g, b⟩
            · simp at hlen; omega
            · exact ⟨g, by simp, hb g (by simp) k hkm⟩
      | idle => simp only [Proc.step] at he; split at he <;> cases he
      | dropM =>
        simp only [Proc.step] at he
        split at he
        · cases mq <;> cases he
        · cases he
      | dropS =>
        simp only [Proc.step] at he
        split at he
        · cases sq <;> cases he
        · cases he
      | chkM => simp only [Proc.step] at he; split at he <;> cases he
      | chkS => simp only [Proc.step] at he; split at he <;> cases he
      | gatherS b =>
        simp only [Proc.step] at he
        split at he
        · cases sq <;> cases he
        · cases he
      | send d => simp only [Proc.step] at he; cases he
      | dead => simp only [Proc.step] at he; cases he

end Machin.Server
