import Verif.Server.GradMap
import Verif.Server.PropsGrad
import Mathlib.Tactic.FieldSimp
import Mathlib.Algebra.Module.Rat
import Mathlib.Algebra.BigOperators.Group.Multiset.Basic
import Mathlib.Algebra.Group.Prod
import Mathlib.Data.Multiset.Basic
import Mathlib.Data.Multiset.ZeroCons
import Mathlib.Tactic.Ring

/-! # C228: what one step of the managed model is made of

The run is repeated with every value paired with the numbers of the pushes it is made of. -/

namespace Machin.Server

open Spec

variable {M : Type} [AddCommMonoid M] [Module ℚ M]

/-- The actions with the pushes to existing members numbered from `t`. -/
def numbered (n : Nat) : Nat → List (GAct M) → List (GAct (M × Multiset Nat))
  | _, [] => []
  | t, .push i g :: as => .push i (gmap (fun v => (v, {t})) g) :: numbered n (if i < n then t + 1 else t) as
  | t, .thread i :: as => .thread i :: numbered n t as

/-- The settings for values paired with numbers. -/
def numberedCfg (cfg : GCfg M) : GCfg (M × Multiset Nat) :=
  ⟨cfg.batchSize, cfg.maxQueue, fun l => (cfg.red (l.map Prod.fst), (l.map Prod.snd).sum), cfg.managed, cfg.modelKeys⟩

/-- The settings for numbers alone. -/
def numbersCfg (cfg : GCfg M) : GCfg (Multiset Nat) := ⟨cfg.batchSize, cfg.maxQueue, List.sum, cfg.managed, cfg.modelKeys⟩

omit [Module ℚ M] [AddCommMonoid M] in
theorem fits_fst (cfg : GCfg M) : Fits Prod.fst (numberedCfg cfg) cfg := ⟨rfl, rfl, rfl, rfl, fun _ => rfl⟩

omit [Module ℚ M] [AddCommMonoid M] in
theorem fits_snd (cfg : GCfg M) : Fits Prod.snd (numberedCfg cfg) (numbersCfg cfg) := ⟨rfl, rfl, rfl, rfl, fun _ => rfl⟩

omit [Module ℚ M] [AddCommMonoid M] in
theorem gmap_gmap {A B C : Type} (f : A → B) (g : B → C) (d : Grad A) : gmap g (gmap f d) = gmap (g ∘ f) d := by
  simp [gmap, List.map_map, Function.comp_def]

omit [Module ℚ M] [AddCommMonoid M] in
theorem numbered_fst (n : Nat) (as : List (GAct M)) (t : Nat) : (numbered n t as).map (GAct.map Prod.fst) = as := by
  induction as generalizing t with
  | nil => rfl
  | cons a as ih =>
    cases a with
    | push i g =>
      simp only [numbered, List.map_cons, GAct.map, ih, gmap_gmap]
      have : gmap (Prod.fst ∘ fun v : M => (v, ({t} : Multiset Nat))) g = g := by
        unfold gmap
        exact (List.map_congr_left fun e _ => rfl).trans (List.map_id g)
      rw [this]
    | thread i => simp only [numbered, List.map_cons, GAct.map, ih]

omit [Module ℚ M] in
theorem numbered_pushed (n : Nat) (k : String) (as : List (GAct M)) (t : Nat) (hk : ∀ i g, .push i g ∈ as → k ∈ PyDict.keys g) :
    (pushed n ((numbered n t as).map (GAct.map Prod.snd))).map (amount k) = (List.range' t (pushed n as).length).map fun t => {t} := by
  induction as generalizing t with
  | nil => rfl
  | cons a as ih =>
    have ih' := fun t => ih t (fun i g h => hk i g (by simp [h]))
    cases a with
    | push i g =>
      have hg := hk i g (by simp)
      obtain ⟨x, hx⟩ := Option.isSome_iff_exists.mp ((PyDict.get?_isSome_iff _ _).mpr hg)
      simp only [numbered, List.map_cons, GAct.map, pushed]
      by_cases hi : i < n
      · simp only [if_pos hi, List.map_cons, List.length_cons, List.range'_succ, ih']
        congr 1
        rw [amount, gmap_get?, gmap_get?, hx]
        rfl
      · simp only [if_neg hi, ih']
    | thread i => simp only [numbered, List.map_cons, GAct.map, pushed, ih']

omit [Module ℚ M] [AddCommMonoid M] in
theorem numbered_mem (n : Nat) (as : List (GAct M)) (t i : Nat) (g : Grad (M × Multiset Nat)) (h : .push i g ∈ numbered n t as) :
    ∃ (g₀ : Grad M) (j : Nat), .push i g₀ ∈ as ∧ g = gmap (fun v => (v, {t + j})) g₀ ∧ (i < n → (pushed n as)[j]? = some g₀) := by
  induction as generalizing t with
  | nil => simp [numbered] at h
  | cons a as ih =>
    cases a with
    | push i' g' =>
      simp only [numbered, List.mem_cons, GAct.push.injEq] at h
      rcases h with ⟨rfl, rfl⟩ | h
      · exact ⟨g', 0, by simp, rfl, fun hi => by simp [pushed, hi]⟩
      · obtain ⟨g₀, j, h1, h2, h3⟩ := ih _ h
        by_cases hi : i' < n
        · rw [if_pos hi] at h2
          exact ⟨g₀, j + 1, by simp [h1], by rw [h2, Nat.add_assoc, Nat.add_comm 1 j], fun hn => by simpa [pushed, hi] using h3 hn⟩
        · rw [if_neg hi] at h2
          exact ⟨g₀, j, by simp [h1], h2, fun hn => by simpa [pushed, hi] using h3 hn⟩
    | thread i' =>
      simp only [numbered, List.mem_cons] at h
      rcases h with h | h
      · cases h
      · obtain ⟨g₀, j, h1, h2, h3⟩ := ih _ h
        exact ⟨g₀, j, by simp [h1], h2, by simpa [pushed] using h3⟩

/-- A gradient made of `c` pushes: for every parameter the sum of what the pushes have, times a factor. -/
def Made (keys : List String) (val : String → Nat → M) (c : Nat) (s : ℚ) (g : Grad (M × Multiset Nat)) : Prop :=
  PyDict.WF g ∧ ∃ S : Multiset Nat, S.card = c ∧ ∀ k ∈ keys, g.get? k = some (s • (S.map (val k)).sum, S)

theorem filterMap_all {A B : Type} (f : A → Option B) (h : A → B) (l : List A) (hl : ∀ a ∈ l, f a = some (h a)) : l.filterMap f = l.map h := by
  induction l with
  | nil => rfl
  | cons a l ih => rw [List.filterMap_cons, hl a (by simp), ih (fun b hb => hl b (by simp [hb]))]; rfl

theorem pick {A B : Type} (b₀ : B) (P : A → B → Prop) (l : List A) (h : ∀ a ∈ l, ∃ b, P a b) : ∃ F : A → B, ∀ a ∈ l, P a (F a) := by
  classical
  refine ⟨fun a => if h : ∃ b, P a b then h.choose else b₀, fun a ha => ?_⟩
  simp only [dif_pos (h a ha)]
  exact (h a ha).choose_spec

theorem made_reduce (cfg : GCfg M) (s : ℚ) (hred : ∀ l, l.length = cfg.batchSize → cfg.red l = s • l.sum) (hbs : 0 < cfg.batchSize) (keys : List String)
    (val : String → Nat → M) (c : Nat) (s₀ : ℚ) (b : List (Grad (M × Multiset Nat))) (hl : b.length = cfg.batchSize) (hb : ∀ g ∈ b, Made keys val c s₀ g) :
    Made keys val (cfg.batchSize * c) (s * s₀) (reduceBatch (numberedCfg cfg).red b) := by
  refine ⟨reduceBatch_wf _ _, ?_⟩
  have hS : ∃ F : Grad (M × Multiset Nat) → Multiset Nat, ∀ g ∈ b, (F g).card = c ∧ ∀ k ∈ keys, g.get? k = some (s₀ • ((F g).map (val k)).sum, F g) :=
    pick 0 (fun g S => S.card = c ∧ ∀ k ∈ keys, g.get? k = some (s₀ • (S.map (val k)).sum, S)) b (fun g hg => (hb g hg).2)
  obtain ⟨F, hF⟩ := hS
  refine ⟨(b.map F).sum, ?_, ?_⟩
  · rw [← hl]
    clear hl hbs hred hb
    induction b with
    | nil => simp
    | cons g b ih =>
      rw [List.map_cons, List.sum_cons, Multiset.card_add, (hF g (by simp)).1, ih (fun g hg => hF g (by simp [hg])), List.length_cons, Nat.succ_mul, Nat.add_comm]
  · intro k hk
    have hne : b ≠ [] := by intro h; rw [h] at hl; simp at hl; omega
    obtain ⟨g, hg⟩ := List.exists_mem_of_ne_nil b hne
    have hkg : k ∈ PyDict.keys g := by rw [← PyDict.get?_isSome_iff, (hF g hg).2 k hk]; rfl
    rw [reduceBatch_get? _ _ (fun g hg => (hb g hg).1) k ⟨g, hg, hkg⟩,
      filterMap_all _ (fun g => (s₀ • ((F g).map (val k)).sum, F g)) b (fun g hg => (hF g hg).2 k hk)]
    simp only [numberedCfg, List.map_map, Function.comp_def]
    rw [hred _ (by simp [hl]), mul_smul]
    congr 3
    clear hl hbs hred hb hne hg hkg hF
    induction b with
    | nil => simp
    | cons g b ih => simp only [List.map_cons, List.sum_cons, Multiset.map_add, Multiset.sum_add, smul_add, ih]

/-- What holds of a member. -/
structure PInv (keys : List String) (val : String → Nat → M) (bs : Nat) (s : ℚ) (p : Proc (M × Multiset Nat)) : Prop where
  master : ∀ g ∈ p.masterQ, Made keys val (bs * 1) (s * 1) g
  sec : ∀ g ∈ p.secQ, Made keys val 1 1 g
  pc : match p.pc with
    | .gatherM b => b.length ≤ bs ∧ ∀ g ∈ b, Made keys val (bs * 1) (s * 1) g
    | .gatherS b => b.length ≤ bs ∧ ∀ g ∈ b, Made keys val 1 1 g
    | .send d => Made keys val (bs * 1) (s * 1) d
    | _ => True

/-- What holds of what a step does elsewhere. -/
def EInv (keys : List String) (val : String → Nat → M) (bs : Nat) (s : ℚ) : Effect (M × Multiset Nat) → Prop
  | .apply d => Made keys val (bs * (bs * 1)) (s * (s * 1)) d
  | .send d => Made keys val (bs * 1) (s * 1) d
  | _ => True

theorem PInv.step (cfg : GCfg M) (s : ℚ) (hred : ∀ l, l.length = cfg.batchSize → cfg.red l = s • l.sum) (hbs : 0 < cfg.batchSize) (keys : List String)
    (val : String → Nat → M) (p : Proc (M × Multiset Nat)) (h : PInv keys val cfg.batchSize s p) :
    PInv keys val cfg.batchSize s (p.step (numberedCfg cfg)).1 ∧ EInv keys val cfg.batchSize s (p.step (numberedCfg cfg)).2 := by
  obtain ⟨mq, sq, pc⟩ := p
  obtain ⟨h1, h2, h3⟩ := h
  have hB : (numberedCfg cfg).batchSize = cfg.batchSize := rfl
  simp only at h1 h2 h3
  cases pc with
  | idle =>
    simp only [Proc.step]
    split
    · exact ⟨⟨h1, h2, trivial⟩, trivial⟩
    · exact ⟨⟨h1, h2, trivial⟩, trivial⟩
  | dropM =>
    simp only [Proc.step]
    split
    · cases mq with
      | nil => exact ⟨⟨h1, h2, trivial⟩, trivial⟩
      | cons d q => exact ⟨⟨fun g hg => h1 g (by simp [hg]), h2, trivial⟩, trivial⟩
    · exact ⟨⟨h1, h2, trivial⟩, trivial⟩
  | dropS =>
    simp only [Proc.step]
    split
    · cases sq with
      | nil => exact ⟨⟨h1, h2, trivial⟩, trivial⟩
      | cons d q => exact ⟨⟨h1, fun g hg => h2 g (by simp [hg]), trivial⟩, trivial⟩
    · exact ⟨⟨h1, h2, trivial⟩, trivial⟩
  | chkM =>
    simp only [Proc.step]
    split
    · exact ⟨⟨h1, h2, by simp, by simp⟩, trivial⟩
    · exact ⟨⟨h1, h2, trivial⟩, trivial⟩
  | gatherM b =>
    simp only at h3
    simp only [Proc.step, hB]
    split
    · cases mq with
      | nil => exact ⟨⟨h1, h2, h3⟩, trivial⟩
      | cons d q =>
        refine ⟨⟨fun g hg => h1 g (by simp [hg]), h2, ?_, ?_⟩, trivial⟩
        · rw [List.length_append, List.length_singleton]; omega
        · intro g hg
          rcases List.mem_append.1 hg with hg | hg
          · exact h3.2 g hg
          · rw [List.mem_singleton] at hg; subst hg; exact h1 g (by simp)
    · have hm := made_reduce cfg s hred hbs keys val (cfg.batchSize * 1) (s * 1) b (by omega) h3.2
      split
      · split
        · exact ⟨⟨h1, h2, trivial⟩, hm⟩
        · exact ⟨⟨h1, h2, trivial⟩, trivial⟩
      · exact ⟨⟨h1, h2, trivial⟩, trivial⟩
  | chkS =>
    simp only [Proc.step]
    split
    · exact ⟨⟨h1, h2, by simp, by simp⟩, trivial⟩
    · exact ⟨⟨h1, h2, trivial⟩, trivial⟩
  | gatherS b =>
    simp only at h3
    simp only [Proc.step, hB]
    split
    · cases sq with
      | nil => exact ⟨⟨h1, h2, h3⟩, trivial⟩
      | cons d q =>
        refine ⟨⟨h1, fun g hg => h2 g (by simp [hg]), ?_, ?_⟩, trivial⟩
        · rw [List.length_append, List.length_singleton]; omega
        · intro g hg
          rcases List.mem_append.1 hg with hg | hg
          · exact h3.2 g hg
          · rw [List.mem_singleton] at hg; subst hg; exact h2 g (by simp)
    · exact ⟨⟨h1, h2, made_reduce cfg s hred hbs keys val 1 1 b (by omega) h3.2⟩, trivial⟩
  | send d => exact ⟨⟨h1, h2, trivial⟩, h3⟩
  | dead => exact ⟨⟨h1, h2, trivial⟩, trivial⟩

/-- What holds of the system. -/
def WInv (keys : List String) (val : String → Nat → M) (bs : Nat) (s : ℚ) (w : World (M × Multiset Nat)) : Prop :=
  (∀ p ∈ w.procs, PInv keys val bs s p) ∧ ∀ d ∈ w.applied, Made keys val (bs * (bs * 1)) (s * (s * 1)) d

theorem PInv.modify {keys : List String} {val : String → Nat → M} {bs : Nat} {s : ℚ} {l : List (Proc (M × Multiset Nat))}
    (h : ∀ p ∈ l, PInv keys val bs s p) (i : Nat) (f : Proc (M × Multiset Nat) → Proc (M × Multiset Nat))
    (hf : ∀ p, i < l.length → PInv keys val bs s p → PInv keys val bs s (f p)) : ∀ p ∈ l.modify i f, PInv keys val bs s p := by
  intro p hp
  obtain ⟨j, hj⟩ := List.mem_iff_getElem?.1 hp
  rw [List.getElem?_modify] at hj
  cases hq : l[j]? with
  | none => rw [hq] at hj; simp at hj
  | some q =>
    rw [hq] at hj
    have hlt := (List.getElem?_eq_some_iff.1 hq).1
    have hq' := h q (List.mem_of_getElem? hq)
    by_cases hij : i = j
    · simp [hij] at hj
      subst hj
      exact hf q (by omega) hq'
    · simp [hij] at hj
      subst hj
      exact hq'

theorem WInv.step (cfg : GCfg M) (s : ℚ) (hred : ∀ l, l.length = cfg.batchSize → cfg.red l = s • l.sum) (hbs : 0 < cfg.batchSize) (keys : List String)
    (val : String → Nat → M) (w : World (M × Multiset Nat)) (h : WInv keys val cfg.batchSize s w) (a : GAct (M × Multiset Nat))
    (ha : ∀ i g, a = .push i g → i < w.procs.length → Made keys val 1 1 g) : WInv keys val cfg.batchSize s (w.step (numberedCfg cfg) a) := by
  cases a with
  | push i g =>
    refine ⟨?_, h.2⟩
    apply PInv.modify h.1
    intro p hi hp
    refine ⟨hp.master, ?_, hp.pc⟩
    intro x hx
    rcases List.mem_append.1 hx with hx | hx
    · exact hp.sec x hx
    · rw [List.mem_singleton] at hx; subst hx; exact ha i _ rfl hi
  | thread i =>
    simp only [World.step]
    cases hp : w.procs[i]? with
    | none => exact h
    | some p =>
      obtain ⟨q1, q2⟩ := PInv.step cfg s hred hbs keys val p (h.1 p (List.mem_of_getElem? hp))
      simp only
      have hset : ∀ q ∈ w.procs.set i (p.step (numberedCfg cfg)).1, PInv keys val cfg.batchSize s q := by
        intro q hq
        rcases mem_set_iff_weak hq with rfl | hq
        · exact q1
        · exact h.1 q hq
      generalize (p.step (numberedCfg cfg)).2 = e at q2
      cases e with
      | none => exact ⟨hset, h.2⟩
      | discard d => exact ⟨hset, h.2⟩
      | lose d => exact ⟨hset, h.2⟩
      | apply d =>
        refine ⟨hset, ?_⟩
        intro x hx
        rcases List.mem_append.1 hx with hx | hx
        · exact h.2 x hx
        · rw [List.mem_singleton] at hx; subst hx; exact q2
      | send d =>
        refine ⟨?_, h.2⟩
        apply PInv.modify hset
        intro q _ hq
        refine ⟨?_, hq.sec, hq.pc⟩
        intro x hx
        rcases List.mem_append.1 hx with hx | hx
        · exact hq.master x hx
        · rw [List.mem_singleton] at hx; subst hx; exact q2

theorem WInv.run (cfg : GCfg M) (s : ℚ) (hred : ∀ l, l.length = cfg.batchSize → cfg.red l = s • l.sum) (hbs : 0 < cfg.batchSize) (keys : List String)
    (val : String → Nat → M) (n : Nat) (as : List (GAct (M × Multiset Nat))) (ha : ∀ i g, .push i g ∈ as → i < n → Made keys val 1 1 g)
    (w : World (M × Multiset Nat)) (hn : w.procs.length = n) (h : WInv keys val cfg.batchSize s w) :
    WInv keys val cfg.batchSize s (w.run (numberedCfg cfg) as) := by
  unfold World.run
  induction as generalizing w with
  | nil => exact h
  | cons a as ih =>
    rw [List.foldl_cons]
    refine ih (fun i g hg => ha i g (by simp [hg])) _ ((World.step_length _ _ _).1.trans hn) ?_
    apply WInv.step cfg s hred hbs keys val w h
    rintro i g rfl hi
    exact ha i g (by simp) (by omega)

/-- C228: every gradient the managed model is stepped with is made of exactly `reduce_batch_size` times `reduce_batch_size` pushes, the same ones for every
parameter, all with the same factor; and no push is part of two of them. `s` is the factor of one reduction: 1 for the sum, one over the batch size for the mean. -/
theorem C228_made (cfg : GCfg M) (s : ℚ) (hred : ∀ l, l.length = cfg.batchSize → cfg.red l = s • l.sum) (hbs : 0 < cfg.batchSize)
    (hm : cfg.managed = true) (hk : cfg.modelKeys ≠ []) (n primary : Nat) (hprim : primary < n) (as : List (GAct M)) (has : GoodPushes cfg as) :
    ∃ T : List (List Nat), T.length = ((World.init n primary).run cfg as).applied.length ∧ T.flatten.Nodup ∧ (∀ t ∈ T.flatten, t < (pushed n as).length) ∧
      ∀ (i : Nat) (d : Grad M) (S : List Nat), ((World.init n primary).run cfg as).applied[i]? = some d → T[i]? = some S →
        S.length = cfg.batchSize ^ 2 ∧
        ∀ k ∈ cfg.modelKeys, d.get? k = some (s ^ 2 • (S.map fun t => (((pushed n as)[t]?).map (amount k)).getD 0).sum) := by
  classical
  set val : String → Nat → M := fun k t => (((pushed n as)[t]?).map (amount k)).getD 0 with hval
  set w' := (World.init n primary).run (numberedCfg cfg) (numbered n 0 as) with hw'
  have hw : (World.init n primary).run cfg as = w'.map Prod.fst := by
    have := World.run_map (fits_fst cfg) (numbered n 0 as) (World.init n primary)
    rwa [World.init_map, numbered_fst] at this
  have hinv : WInv cfg.modelKeys val cfg.batchSize s w' := by
    refine WInv.run cfg s hred hbs cfg.modelKeys val n _ ?_ _ (by simp [World.init]) ⟨?_, by simp [World.init]⟩
    · intro i g hg hi
      obtain ⟨g₀, j, h1, h2, h3⟩ := numbered_mem n as 0 i g hg
      obtain ⟨g1, g2⟩ := has i g₀ h1
      refine ⟨by unfold PyDict.WF; rw [h2, gmap_keys]; exact g1, {j}, rfl, fun k hk => ?_⟩
      obtain ⟨x, hx⟩ := Option.isSome_iff_exists.mp ((PyDict.get?_isSome_iff _ _).mpr (g2 k hk))
      rw [h2, gmap_get?, hx, Nat.zero_add]
      simp [hval, h3 hi, amount, hx]
    · intro p hp
      simp only [World.init, List.mem_replicate] at hp
      rw [hp.2]
      exact ⟨by simp, by simp, trivial⟩
  -- the numbers of each gradient
  have hS : ∃ F : Grad (M × Multiset Nat) → Multiset Nat, ∀ d ∈ w'.applied,
      (F d).card = cfg.batchSize * (cfg.batchSize * 1) ∧ ∀ k ∈ cfg.modelKeys, d.get? k = some ((s * (s * 1)) • ((F d).map (val k)).sum, F d) :=
    pick 0 (fun d S => S.card = cfg.batchSize * (cfg.batchSize * 1) ∧ ∀ k ∈ cfg.modelKeys, d.get? k = some ((s * (s * 1)) • (S.map (val k)).sum, S))
      w'.applied (fun d hd => (hinv.2 d hd).2)
  obtain ⟨F, hF⟩ := hS
  obtain ⟨k₀, hk₀⟩ := List.exists_mem_of_ne_nil _ hk
  -- counting numbers
  have hcount := C27_exactly_once (numbersCfg cfg) rfl hbs hm n primary hprim ((numbered n 0 as).map (GAct.map Prod.snd)) (by
      intro i g hg
      obtain ⟨a, ha, hag⟩ := List.mem_map.1 hg
      cases a with
      | thread j => cases hag
      | push j g' =>
        simp only [GAct.map, GAct.push.injEq] at hag
        obtain ⟨rfl, rfl⟩ := hag
        obtain ⟨g₀, j', h1, h2, -⟩ := numbered_mem n as 0 _ g' ha
        obtain ⟨g1, g2⟩ := has _ g₀ h1
        rw [h2]
        exact ⟨by unfold PyDict.WF; rw [gmap_keys, gmap_keys]; exact g1, fun k hk => by rw [gmap_keys, gmap_keys]; exact g2 k hk⟩) k₀
    (List.range' 0 (pushed n as).length) List.nodup_range' (numbered_pushed n k₀ as 0 (fun i g h => (has i g h).2 k₀ hk₀))
  simp only at hcount
  have hw2 : (World.init n primary).run (numbersCfg cfg) ((numbered n 0 as).map (GAct.map Prod.snd)) = w'.map Prod.snd := by
    have := World.run_map (fits_snd cfg) (numbered n 0 as) (World.init n primary)
    rwa [World.init_map] at this
  rw [hw2] at hcount
  have htot : total k₀ (w'.map Prod.snd).applied = (w'.applied.map F).sum := by
    unfold total World.map
    simp only [List.map_map]
    congr 1
    apply List.map_congr_left
    intro d hd
    simp only [Function.comp, amount, gmap_get?, (hF d hd).2 k₀ hk₀]
    rfl
  rw [htot] at hcount
  have hflat : ∀ t, ((w'.applied.map fun d => (F d).toList).flatten).count t = (w'.applied.map F).sum.count t := by
    intro t
    generalize w'.applied = l
    induction l with
    | nil => simp
    | cons d l ih =>
      rw [List.map_cons, List.flatten_cons, List.count_append, ih, List.map_cons, List.sum_cons, Multiset.count_add]
      congr 1
      rw [← Multiset.coe_count, Multiset.coe_toList]
  refine ⟨w'.applied.map fun d => (F d).toList, by rw [hw]; simp [World.map], ?_, ?_, ?_⟩
  · rw [List.nodup_iff_count_le_one]
    intro t
    rw [hflat]
    have := hcount t
    split at this <;> omega
  · intro t ht
    have h1 := List.count_pos_iff.2 ht
    rw [hflat] at h1
    have := hcount t
    split at this
    · next hm => simpa [List.mem_range'_1] using hm
    · omega
  · intro i d S hd hSi
    rw [hw] at hd
    simp only [World.map, List.getElem?_map] at hd hSi
    cases hx : w'.applied[i]? with
    | none => rw [hx] at hd; simp at hd
    | some d' =>
      rw [hx] at hd hSi
      simp only [Option.map_some, Option.some.injEq] at hd hSi
      obtain ⟨f1, f2⟩ := hF d' (List.mem_of_getElem? hx)
      subst hSi
      refine ⟨by rw [Multiset.length_toList, f1]; ring, fun k hk => ?_⟩
      rw [← hd, gmap_get?, f2 k hk]
      simp only [Option.map_some, Option.some.injEq]
      rw [show s * (s * 1) = s ^ 2 by ring]
      congr 1
      conv_lhs => rw [← Multiset.coe_toList (F d'), Multiset.map_coe, Multiset.sum_coe]

/-- C228 for the mean: a step is taken with the plain average of `reduce_batch_size²` pushes, each of equal weight. -/
theorem C228_mean (cfg : GCfg M) (hred : cfg.red = fun l => (1 / (l.length : ℚ)) • l.sum) (hbs : 0 < cfg.batchSize)
    (hm : cfg.managed = true) (hk : cfg.modelKeys ≠ []) (n primary : Nat) (hprim : primary < n) (as : List (GAct M)) (has : GoodPushes cfg as) :
    ∃ T : List (List Nat), T.length = ((World.init n primary).run cfg as).applied.length ∧ T.flatten.Nodup ∧ (∀ t ∈ T.flatten, t < (pushed n as).length) ∧
      ∀ (i : Nat) (d : Grad M) (S : List Nat), ((World.init n primary).run cfg as).applied[i]? = some d → T[i]? = some S →
        S.length = cfg.batchSize ^ 2 ∧
        ∀ k ∈ cfg.modelKeys, d.get? k = some ((1 / (S.length : ℚ)) • (S.map fun t => (((pushed n as)[t]?).map (amount k)).getD 0).sum) := by
  obtain ⟨T, h1, h2, h3, h4⟩ := C228_made cfg (1 / (cfg.batchSize : ℚ)) (fun l hl => by simp only [hred, hl]) hbs hm hk n primary hprim as has
  refine ⟨T, h1, h2, h3, fun i d S hd hS => ?_⟩
  obtain ⟨h5, h6⟩ := h4 i d S hd hS
  refine ⟨h5, fun k hk => ?_⟩
  rw [h6 k hk, h5]
  congr 2
  push_cast
  rw [div_pow, one_pow]

/-- C228 for the sum: a step is taken with the sum of `reduce_batch_size²` pushes, so the length of a step grows with the square of the batch size. -/
theorem C228_sum (cfg : GCfg M) (hred : cfg.red = List.sum) (hbs : 0 < cfg.batchSize) (hm : cfg.managed = true) (hk : cfg.modelKeys ≠ [])
    (n primary : Nat) (hprim : primary < n) (as : List (GAct M)) (has : GoodPushes cfg as) :
    ∃ T : List (List Nat), T.length = ((World.init n primary).run cfg as).applied.length ∧ T.flatten.Nodup ∧ (∀ t ∈ T.flatten, t < (pushed n as).length) ∧
      ∀ (i : Nat) (d : Grad M) (S : List Nat), ((World.init n primary).run cfg as).applied[i]? = some d → T[i]? = some S →
        S.length = cfg.batchSize ^ 2 ∧
        ∀ k ∈ cfg.modelKeys, d.get? k = some ((S.map fun t => (((pushed n as)[t]?).map (amount k)).getD 0).sum) := by
  obtain ⟨T, h1, h2, h3, h4⟩ := C228_made cfg 1 (fun l _ => by rw [hred, one_smul]) hbs hm hk n primary hprim as has
  refine ⟨T, h1, h2, h3, fun i d S hd hS => ?_⟩
  obtain ⟨h5, h6⟩ := h4 i d S hd hS
  exact ⟨h5, fun k hk => by rw [h6 k hk, one_pow, one_smul]⟩

/-- Two members and batches of two: the model is stepped once, with the average of the first two pushes to either member; the fifth waits. -/
example : ((World.init 2 0).run { exCfg ℚ with red := fun l => (1 / (l.length : ℚ)) • l.sum } exSched).applied = [[("w", 15 / 4)]] ∧
    ((World.init 2 0).run { exCfg ℚ with red := fun l => (1 / (l.length : ℚ)) • l.sum } exSched).held "w" = 16 := by decide +kernel

end Machin.Server
