import Mathlib.Algebra.Order.Group.Multiset
import Mathlib.Algebra.Order.Ring.Rat
import Mathlib.Algebra.Field.Rat
import Verif.Server.GradLemmas

/-! # Properties of the gradient server (C27) -/

namespace Machin.Server

open Spec

variable {M : Type} [AddCommMonoid M]

/-- What clients push: dictionaries with distinct names, with all parameters of the managed model (`push` raises otherwise,
param_server.py:177-180). -/
def GoodPushes (cfg : GCfg M) (as : List (GAct M)) : Prop :=
  ∀ i g, .push i g ∈ as → PyDict.WF g ∧ ∀ k ∈ cfg.modelKeys, k ∈ g.keys

/-- The conservation law, with the gradients that were dropped because no model is managed or a parameter is missing. -/
theorem C27_conservation_lost (cfg : GCfg M) (hred : cfg.red = List.sum) (hbs : 0 < cfg.batchSize) (n primary : Nat)
    (hprim : primary < n) (as : List (GAct M)) (has : ∀ i g, .push i g ∈ as → PyDict.WF g) (k : String) :
    let w := (World.init n primary).run cfg as
    total k (pushed n as) = total k w.applied + total k w.discarded + total k w.lost + w.held k := by
  have key : ∀ as : List (GAct M), (∀ i g, .push i g ∈ as → PyDict.WF g) →
      let w := (World.init n primary).run cfg as
      w.procs.length = n ∧ w.primary = primary ∧ w.All PyDict.WF ∧
        total k w.applied + total k w.discarded + total k w.lost + w.held k = total k (pushed n as) := by
    intro as
    induction as using List.reverseRecOn with
    | nil =>
      intro _
      refine ⟨by simp [World.run, World.init], rfl, ?_, ?_⟩
      · intro p hp g hg
        simp only [World.run, World.init, List.foldl_nil, List.mem_replicate] at hp
        rw [hp.2] at hg
        simp [pending, inFlight] at hg
      · simp [World.run, World.init, World.held, pending, inFlight, pushed]
    | append_singleton as a ih =>
      intro has
      obtain ⟨h1, h2, h3, h4⟩ := ih fun i g h => has i g (by simp [h])
      simp only [World.run, List.foldl_append, List.foldl_cons, List.foldl_nil] at h1 h2 h3 h4 ⊢
      refine ⟨(World.step_length _ _ _).1.trans h1, (World.step_length _ _ _).2.trans h2, ?_, ?_⟩
      · exact World.step_all hbs (fun b _ _ => reduceBatch_wf _ b) h3 a fun i g h => has i g (by simp [h])
      · rw [World.step_total hred h3 (by rw [h1, h2]; exact hprim), h4, pushed_append, total_append, h1]
  exact (key as has).2.2.2.symm

/-- For every interleaving of client pushes and steps of the reduction threads, the total pushed is the total applied to
the model, plus the total discarded from full queues, plus what the members still hold. -/
theorem C27_conservation (cfg : GCfg M) (hred : cfg.red = List.sum) (hbs : 0 < cfg.batchSize)
    (hm : cfg.managed = true) (n primary : Nat) (hprim : primary < n) (as : List (GAct M)) (has : GoodPushes cfg as)
    (k : String) :
    let w := (World.init n primary).run cfg as
    total k (pushed n as) = total k w.applied + total k w.discarded + w.held k := by
  have hl := C27_conservation_lost cfg hred hbs n primary hprim as (fun i g h => (has i g h).1) k
  have hlost : ((World.init n primary).run cfg as).lost = [] := by
    have : ∀ (as : List (GAct M)), (∀ i g, .push i g ∈ as → ∀ k ∈ cfg.modelKeys, k ∈ PyDict.keys g) →
        ((World.init n primary).run cfg as).All (fun g => ∀ k ∈ cfg.modelKeys, k ∈ g.keys) ∧
          ((World.init n primary).run cfg as).lost = [] := by
      intro as
      induction as using List.reverseRecOn with
      | nil =>
        intro _
        refine ⟨?_, rfl⟩
        intro p hp g hg
        simp only [World.run, World.init, List.foldl_nil, List.mem_replicate] at hp
        rw [hp.2] at hg
        simp [pending, inFlight] at hg
      | append_singleton as a ih =>
        intro has
        obtain ⟨h1, h2⟩ := ih fun i g h => has i g (by simp [h])
        simp only [World.run, List.foldl_append, List.foldl_cons, List.foldl_nil] at h1 h2 ⊢
        refine ⟨World.step_all hbs ?_ h1 a fun i g h => has i g (by simp [h]), (World.step_lost hm hbs h1 a).trans h2⟩
        intro b hb hg k hk
        obtain ⟨g, hg'⟩ := List.exists_mem_of_ne_nil b hb
        exact (reduceBatch_keys _ _ _).mpr ⟨g, hg', hg g hg' k hk⟩
    exact (this as fun i g h => (has i g h).2).2
  simp only at hl ⊢
  rw [hlost, total_nil, add_zero] at hl
  exact hl

/-- Two members, batches of two. -/
def exCfg (M : Type) [AddCommMonoid M] : GCfg M := ⟨2, 3, List.sum, true, ["w"]⟩

/-- Three pushes to each member, then enough steps of both threads to reduce and apply. -/
def exSched : List (GAct ℚ) :=
  [.push 0 [("w", 1)], .push 1 [("w", 2)], .push 0 [("w", 4)], .push 1 [("w", 8)], .push 1 [("w", 16)]] ++
    List.replicate 10 (.thread 0) ++ List.replicate 10 (.thread 1) ++ List.replicate 9 (.thread 0)

example : GoodPushes (exCfg ℚ) exSched := by
  intro i g h
  simp only [exSched, List.mem_append, List.mem_cons, List.mem_replicate, List.not_mem_nil, or_false] at h
  simp at h
  rcases h with h | h | h | h | h
  all_goals
    rw [h.2]
    exact ⟨by simp [PyDict.WF, PyDict.keys], by simp [exCfg, PyDict.keys]⟩

example : total "w" ((World.init 2 0).run (exCfg ℚ) exSched).applied = 15 ∧
    ((World.init 2 0).run (exCfg ℚ) exSched).held "w" = 16 := by decide +kernel

/-- Nothing is counted twice: if every pushed gradient carries its own tag (gradients as multisets of tags), every tag ends
up at most once among everything applied, discarded and still held, and none is missing. -/
theorem C27_exactly_once (cfg : GCfg (Multiset Nat)) (hred : cfg.red = List.sum) (hbs : 0 < cfg.batchSize)
    (hm : cfg.managed = true) (n primary : Nat) (hprim : primary < n) (as : List (GAct (Multiset Nat)))
    (has : GoodPushes cfg as) (k : String) (tags : List Nat) (htags : tags.Nodup)
    (hpush : (pushed n as).map (amount k) = tags.map fun t => {t}) :
    let w := (World.init n primary).run cfg as
    ∀ t, (total k w.applied).count t + (total k w.discarded).count t + (w.held k).count t = if t ∈ tags then 1 else 0 := by
  intro w t
  have h := C27_conservation cfg hred hbs hm n primary hprim as has k
  simp only at h
  have h1 : total k (pushed n as) = (tags : Multiset Nat) := by
    unfold total
    rw [hpush]
    clear hpush htags
    induction tags with
    | nil => rfl
    | cons a l ih => rw [List.map_cons, List.sum_cons, ih]; rfl
  rw [h1] at h
  have h2 := congrArg (Multiset.count t) h
  rw [Multiset.count_add, Multiset.count_add] at h2
  rw [← h2, Multiset.coe_count]
  split
  · rename_i ht; exact List.count_eq_one_of_mem htags ht
  · rename_i ht; exact List.count_eq_zero_of_not_mem ht

example : (pushed 2 [.push 0 [("w", {5})], .thread 0, .push 1 [("w", ({6} : Multiset Nat))]]).map (amount "w") =
    [5, 6].map fun t => {t} := by decide +kernel

omit [AddCommMonoid M] in
/-- A reduction thread never blocks while gathering a batch: only it takes requests from its queues, and it starts
gathering only when a full batch is queued. -/
theorem C27_no_block (cfg : GCfg M) (n primary : Nat) (as : List (GAct M)) :
    ∀ p ∈ ((World.init n primary).run cfg as).procs,
      (∀ b, p.pc = .gatherM b → cfg.batchSize ≤ p.masterQ.length + b.length) ∧
      (∀ b, p.pc = .gatherS b → cfg.batchSize ≤ p.secQ.length + b.length) := by
  let Q : Proc M → Prop := fun p =>
    (∀ b, p.pc = .gatherM b → cfg.batchSize ≤ p.masterQ.length + b.length) ∧
      (∀ b, p.pc = .gatherS b → cfg.batchSize ≤ p.secQ.length + b.length)
  have hpush : ∀ (l : List (Proc M)) i d (f : Proc M → Proc M), (f = (·.pushM d) ∨ f = (·.pushS d)) → (∀ p ∈ l, Q p) →
      ∀ p ∈ l.modify i f, Q p := by
    intro l i d f hf hl p hp
    rcases hi : l[i]? with _ | a
    · rw [modify_none _ _ _ hi] at hp; exact hl p hp
    · rw [modify_eq_set _ _ _ _ hi] at hp
      rcases mem_set_iff_weak hp with rfl | hp
      · have ha := hl a (List.mem_of_getElem? hi)
        rcases hf with rfl | rfl
        · exact ⟨fun b hb => by have := ha.1 b hb; simp [Proc.pushM]; omega, fun b hb => ha.2 b hb⟩
        · exact ⟨fun b hb => ha.1 b hb, fun b hb => by have := ha.2 b hb; simp [Proc.pushS]; omega⟩
      · exact hl p hp
  have hstep : ∀ p : Proc M, Q p → Q (p.step cfg).1 := by
    intro p hp
    obtain ⟨mq, sq, pc⟩ := p
    simp only [Q] at hp
    cases pc with
    | idle => simp only [Proc.step]; split <;> simp [Q]
    | dropM =>
      simp only [Proc.step]
      split
      · cases mq <;> simp [Q]
      · simp [Q]
    | dropS =>
      simp only [Proc.step]
      split
      · cases sq <;> simp [Q]
      · simp [Q]
    | chkM =>
      simp only [Proc.step]
      split
      · simp only [Q]; simp; omega
      · simp [Q]
    | gatherM b =>
      simp only [Proc.step]
      split
      · have := hp.1 b rfl
        cases mq with
        | nil => simpa [Q] using hp
        | cons d q => simp only [Q]; simp at this ⊢; omega
      · split
        · split <;> simp [Q]
        · simp [Q]
    | chkS =>
      simp only [Proc.step]
      split
      · simp only [Q]; simp; omega
      · simp [Q]
    | gatherS b =>
      simp only [Proc.step]
      split
      · have := hp.2 b rfl
        cases sq with
        | nil => simpa [Q] using hp
        | cons d q => simp only [Q]; simp at this ⊢; omega
      · simp [Q]
    | send d => simp [Proc.step, Q]
    | dead => simp [Proc.step, Q]
  induction as using List.reverseRecOn with
  | nil =>
    intro p hp
    simp only [World.run, World.init, List.foldl_nil, List.mem_replicate] at hp
    rw [hp.2]
    simp
  | append_singleton as a ih =>
    simp only [World.run, List.foldl_append, List.foldl_cons, List.foldl_nil] at ih ⊢
    cases a with
    | push i g => exact hpush _ i g _ (.inr rfl) ih
    | thread i =>
      simp only [World.step]
      split
      · exact ih
      · rename_i p hp
        have hset : ∀ q ∈ (List.foldl (World.step cfg) (World.init n primary) as).procs.set i (p.step cfg).1, Q q := by
          intro q hq
          rcases mem_set_iff_weak hq with rfl | hq
          · exact hstep p (ih p (List.mem_of_getElem? hp))
          · exact ih q hq
        rcases (p.step cfg).2 with _ | d | d | d | d
        all_goals simp only [World.effect]
        · exact hset
        · exact hset
        · exact hset
        · exact hset
        · exact hpush _ _ d _ (.inl rfl) hset

omit [AddCommMonoid M] in
/-- Only the oldest request of a queue that is longer than `max_queue_size` is discarded. -/
theorem C27_discard (cfg : GCfg M) (p : Proc M) (d : Grad M) (h : (p.step cfg).2 = .discard d) :
    (cfg.maxQueue < p.masterQ.length ∧ p.masterQ = d :: (p.step cfg).1.masterQ ∧ (p.step cfg).1.secQ = p.secQ) ∨
    (cfg.maxQueue < p.secQ.length ∧ p.secQ = d :: (p.step cfg).1.secQ ∧ (p.step cfg).1.masterQ = p.masterQ) := by
  obtain ⟨mq, sq, pc⟩ := p
  revert h
  cases pc with
  | idle => simp only [Proc.step]; split <;> simp
  | dropM =>
    simp only [Proc.step]
    split
    · cases mq with
      | nil => simp
      | cons a q => intro h; simp only [Effect.discard.injEq] at h; subst h; left; exact ⟨by assumption, rfl, rfl⟩
    · simp
  | dropS =>
    simp only [Proc.step]
    split
    · cases sq with
      | nil => simp
      | cons a q => intro h; simp only [Effect.discard.injEq] at h; subst h; right; exact ⟨by assumption, rfl, rfl⟩
    · simp
  | chkM => simp only [Proc.step]; split <;> simp
  | gatherM b =>
    simp only [Proc.step]
    split
    · cases mq <;> simp
    · split
      · split <;> simp
      · simp
  | chkS => simp only [Proc.step]; split <;> simp
  | gatherS b =>
    simp only [Proc.step]
    split
    · cases sq <;> simp
    · simp
  | send d => simp [Proc.step]
  | dead => simp [Proc.step]

/-- A step that discards a request. -/
example : ((⟨[[("w", 1)], [("w", 2)], [("w", 3)], [("w", 4)]], [], .dropM⟩ : Proc ℚ).step (exCfg ℚ)).1.masterQ =
    [[("w", 2)], [("w", 3)], [("w", 4)]] := by decide +kernel

omit [AddCommMonoid M] in
/-- So if the queues never get longer than `max_queue_size`, nothing is discarded. -/
theorem C27_no_discard (cfg : GCfg M) (n primary : Nat) (as : List (GAct M))
    (h : ∀ pre, pre <+: as → ∀ p ∈ ((World.init n primary).run cfg pre).procs,
      p.masterQ.length ≤ cfg.maxQueue ∧ p.secQ.length ≤ cfg.maxQueue) :
    ((World.init n primary).run cfg as).discarded = [] := by
  induction as using List.reverseRecOn with
  | nil => rfl
  | append_singleton as a ih =>
    have ih := ih fun pre hp => h pre (hp.trans (List.prefix_append _ _))
    have hq := h as (List.prefix_append _ _)
    simp only [World.run, List.foldl_append, List.foldl_cons, List.foldl_nil] at ih hq ⊢
    cases a with
    | push i g => exact ih
    | thread i =>
      simp only [World.step]
      split
      · exact ih
      · rename_i p hp
        have hp := hq p (List.mem_of_getElem? hp)
        rcases he : (p.step cfg).2 with _ | d | d | d | d
        · exact ih
        · rcases C27_discard cfg p d he with h | h
          · omega
          · omega
        · exact ih
        · exact ih
        · exact ih

/-- The schedule of the example above stays within the limit. -/
example : ((World.init 2 0).run (exCfg ℚ) exSched).discarded.length = 0 := by decide +kernel

/-- The mean reduction: every parameter gets the mean over the dictionaries of the batch. -/
theorem C27_mean (batch : List (Grad ℚ)) (hb : ∀ g ∈ batch, PyDict.WF g) (hne : batch ≠ []) (k : String)
    (hk : ∀ g ∈ batch, k ∈ PyDict.keys g) :
    (reduceBatch (fun l : List ℚ => l.sum / l.length) batch).get? k = some (total k batch / batch.length) := by
  obtain ⟨g, hg⟩ := List.exists_mem_of_ne_nil batch hne
  rw [reduceBatch_get? _ _ hb _ ⟨g, hg, hk g hg⟩, ← total_eq]
  congr 2
  have : (batch.filterMap fun g => g.get? k).length = batch.length := by
    clear hne hb hg g
    induction batch with
    | nil => rfl
    | cons g batch ih =>
      obtain ⟨x, hx⟩ := Option.isSome_iff_exists.mp ((PyDict.get?_isSome_iff _ _).mpr (hk g (by simp)))
      rw [List.filterMap_cons, hx]
      simp [ih fun g hg => hk g (by simp [hg])]
  rw [this]

example : (reduceBatch (fun l : List ℚ => l.sum / l.length) [[("w", 1), ("b", 5)], [("b", 7), ("w", 2)]]) =
    [("w", 3 / 2), ("b", 6)] := by decide +kernel

end Machin.Server
