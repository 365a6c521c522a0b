import Verif.Algo.GradHelper
import Verif.Server.GradModel

/-! # Properties of the gradient server helper (C108, C109, C110) -/

namespace Machin.Algo

open Machin.Server (Grad GCfg Proc World GAct)

variable {M K S : Type}

/-! ### C108: server `i` manages model `i` -/

/-- The servers that the helper should make on the primary reducer. -/
def Managed (creators : List M) (rates : List Int) (kwargs : List K) (scheds : Option (List S)) (servers : List (Srv M K S)) : Prop :=
  servers.length = creators.length ∧
  ∀ (i : Nat) (m : M) (r : Int) (k : K), creators[i]? = some m → rates[i]? = some r → kwargs[i]? = some k →
    servers[i]? = some (⟨some m, some (m, r, k), scheds.bind (·[i]?), true, true⟩ : Srv M K S)

/-- C108 in full: with one rate, one keyword dictionary and (if a scheduler is given) one tuple of scheduler arguments per model, server `i` of
the primary reducer manages model `i` with optimizer `i` and scheduler `i`, and is started. -/
def C108_full : Prop :=
  ∀ (creators : List Nat) (members : List Nat) (p : Nat) (rates : List Int) (ks ss : List Nat) (sch : Bool),
    rates.length = creators.length → ks.length = creators.length → ss.length = creators.length →
    ∃ servers, gradServerHelper creators (p :: members) p (.list rates) 0 (some ks) sch 0 (some ss) = .ok servers ∧
      Managed creators rates ks (if sch then some ss else none) servers

theorem manageLoop_nosched (ms : List M) (ks : List K) (rs : List Int) (cs : List S) (hk : ks.length = ms.length) (hr : rs.length = ms.length)
    (hc : cs.length = ms.length) :
    ∃ servers : List (Srv M K S), manageLoop false .cls ms (List.replicate ms.length Srv.fresh) ks rs cs = .ok servers ∧ Managed ms rs ks none servers := by
  induction ms generalizing ks rs cs with
  | nil => exact ⟨[], by simp [manageLoop], rfl, by simp⟩
  | cons m ms ih =>
    obtain ⟨k, ks, rfl⟩ := List.exists_cons_of_length_eq_add_one hk
    obtain ⟨r, rs, rfl⟩ := List.exists_cons_of_length_eq_add_one hr
    obtain ⟨c, cs, rfl⟩ := List.exists_cons_of_length_eq_add_one hc
    obtain ⟨servers, h1, h2, h3⟩ := ih ks rs cs (by simpa using hk) (by simpa using hr) (by simpa using hc)
    refine ⟨⟨some m, some (m, r, k), none, true, true⟩ :: servers, ?_, by simp [h2], ?_⟩
    · simp only [List.length_cons, List.replicate_succ, manageLoop, Bool.false_eq_true, ↓reduceIte]
      rw [h1]
      rfl
    · intro i m' r' k' e1 e2 e3
      cases i with
      | zero =>
        simp only [List.getElem?_cons_zero, Option.some.injEq] at e1 e2 e3
        subst e1 e2 e3
        rfl
      | succ i =>
        simp only [List.getElem?_cons_succ] at e1 e2 e3 ⊢
        exact h3 i m' r' k' e1 e2 e3

theorem orDefault_full (n : Nat) (d : K) (l : List K) (h : l.length = n) : orDefault n d (some l) = l := by
  cases l with
  | nil => simp only [List.length_nil] at h; subst h; rfl
  | cons x xs => rfl

theorem orDefault_length (n : Nat) (d : K) : (orDefault n d none).length = n := by simp [orDefault]

/-- C108, the part that holds: without a scheduler, every server manages its model with its rate and settings, and is started. -/
theorem C108_managed_partial (creators : List M) (members : List Nat) (p : Nat) (rates : List Int) (dk : K) (ks : List K) (ds : S)
    (hr : rates.length = creators.length) (hk : ks.length = creators.length) :
    ∃ servers : List (Srv M K S), gradServerHelper creators (p :: members) p (.list rates) dk (some ks) false ds none = .ok servers ∧
      Managed creators rates ks none servers := by
  obtain ⟨servers, h1, h2⟩ := manageLoop_nosched creators ks rates (orDefault (K := S) creators.length ds none) hk hr (orDefault_length _ ds)
  refine ⟨servers, ?_, h2⟩
  simp only [gradServerHelper, ↓reduceIte, Rate.expand]
  rw [orDefault_full _ _ _ hk]
  exact h1

/-- C108, the part that holds: a single `float` rate is used for every model. -/
theorem C108_single_rate_partial (creators : List M) (members : List Nat) (p : Nat) (x : Int) (dk : K) (ds : S) :
    ∃ servers : List (Srv M K S), gradServerHelper creators (p :: members) p (.float x) dk none false ds none = .ok servers ∧
      Managed creators (List.replicate creators.length x) (List.replicate creators.length dk) none servers := by
  obtain ⟨servers, h1, h2⟩ := manageLoop_nosched creators (orDefault creators.length dk none) (List.replicate creators.length x)
    (orDefault (K := S) creators.length ds none) (orDefault_length _ dk) (by simp) (orDefault_length _ ds)
  exact ⟨servers, by simpa only [gradServerHelper, ↓reduceIte, Rate.expand] using h1, h2⟩

/-- C108, the part that holds: with a scheduler and one model, the server has optimizer and scheduler. -/
theorem C108_one_scheduler_partial (m : M) (members : List Nat) (p : Nat) (r : Int) (dk k : K) (ds c : S) :
    gradServerHelper [m] (p :: members) p (.list [r]) dk (some [k]) true ds (some [c]) =
      .ok [⟨some m, some (m, r, k), some c, true, true⟩] := by
  simp [gradServerHelper, Rate.expand, orDefault, manageLoop, Srv.fresh, Srv.manage, Srv.start]

/-- C108 is violated: with a scheduler and two models or more, the helper raises `TypeError` (the variable `optimizer` was rebound). -/
theorem C108_violated_scheduler (m₁ m₂ : M) (ms : List M) (members : List Nat) (p : Nat) (r₁ r₂ : Int) (rs : List Int) (dk : K) (ds : S) :
    gradServerHelper (K := K) (S := S) (m₁ :: m₂ :: ms) (p :: members) p (.list (r₁ :: r₂ :: rs)) dk none true ds none = .error .type := by
  simp [gradServerHelper, Rate.expand, orDefault, List.replicate_succ, manageLoop]

/-- C108 is violated: so `A3C.init_from_config` raises on the primary reducer whenever a scheduler is configured. -/
theorem C108_violated_a3c (a c : M) (members : List Nat) (p : Nat) (r₁ r₂ : Int) (dk : K) (ds : S) :
    a3cServers (K := K) (S := S) [a, c] (p :: members) p r₁ r₂ dk true ds none = .error .type := by
  simp [a3cServers, lateCreators, gradServerHelper, Rate.expand, orDefault, List.replicate_succ, manageLoop]

/-- C108 is violated: a rate that is an `int` is not expanded and cannot be zipped. -/
theorem C108_violated_int (creators : List M) (members : List Nat) (p : Nat) (x : Int) (dk : K) (ds : S) (b : Bool) :
    gradServerHelper (K := K) (S := S) creators (p :: members) p (.int x) dk none b ds none = .error .type := by
  simp [gradServerHelper, Rate.expand]

theorem C108_violated : ¬ C108_full := by
  intro h
  obtain ⟨servers, h1, _⟩ := h [1, 2] [] 0 [1, 1] [0, 0] [0, 0] true rfl rfl rfl
  revert h1
  simp [gradServerHelper, Rate.expand, orDefault, List.replicate_succ, manageLoop]

/-- The loop leaves the servers beyond the shortest list alone. -/
theorem manageLoop_short (ms : List M) (ss : List (Srv M K S)) (ks : List K) (rs : List Int) (cs : List S) (servers : List (Srv M K S))
    (h : manageLoop false .cls ms ss ks rs cs = .ok servers) : ∀ i, rs.length ≤ i → servers[i]? = ss[i]? := by
  induction rs generalizing ms ss ks cs servers with
  | nil =>
    intro i _
    unfold manageLoop at h
    split at h
    · simp_all
    · cases h; rfl
  | cons r rs ih =>
    intro i hi
    cases ms with
    | nil => simp only [manageLoop, Except.ok.injEq] at h; rw [h]
    | cons m ms =>
    cases ss with
    | nil => simp only [manageLoop, Except.ok.injEq] at h; rw [h]
    | cons s ss =>
    cases ks with
    | nil => simp only [manageLoop, Except.ok.injEq] at h; rw [h]
    | cons k ks =>
    cases cs with
    | nil => simp only [manageLoop, Except.ok.injEq] at h; rw [h]
    | cons c cs =>
    simp only [manageLoop, Bool.false_eq_true, ↓reduceIte] at h
    revert h
    cases hl : manageLoop false .cls ms ss ks rs cs with
    | error e => intro h; cases h
    | ok rest =>
      intro h
      cases h
      cases i with
      | zero => simp at hi
      | succ i => simpa using ih ms ss ks cs rest hl i (by simpa using hi)

/-- C108 is violated without notice: with fewer rates than models, the remaining servers manage nothing and are not started. -/
theorem C108_violated_short (creators : List M) (members : List Nat) (p : Nat) (rates : List Int) (dk : K) (ds : S) (servers : List (Srv M K S))
    (h : gradServerHelper creators (p :: members) p (.list rates) dk none false ds none = .ok servers) (i : Nat)
    (h1 : rates.length ≤ i) (h2 : i < creators.length) : servers[i]? = some Srv.fresh := by
  simp only [gradServerHelper, ↓reduceIte, Rate.expand] at h
  rw [manageLoop_short _ _ _ _ _ _ h i h1]
  simp [h2]

example : gradServerHelper (K := Nat) (S := Nat) ["actor", "critic"] [0, 1, 2] 0 (.list [1, 2]) 0 none false 0 none =
    .ok [⟨some "actor", some ("actor", 1, 0), none, true, true⟩, ⟨some "critic", some ("critic", 2, 0), none, true, true⟩] := by decide

example : gradServerHelper (K := Nat) (S := Nat) ["actor", "critic"] [0, 1, 2] 0 (.list [1]) 0 none false 0 none =
    .ok [⟨some "actor", some ("actor", 1, 0), none, true, true⟩, Srv.fresh] := by decide

/-! ### C109: the actor server of A3C manages an actor -/

/-- C109 in full: initialised from a configuration, server `i` of A3C manages model `i`. -/
def C109_full : Prop :=
  ∀ (a c : Nat) (members : List Nat) (p : Nat) (r₁ r₂ : Int), ∃ servers,
    a3cServers (K := Nat) (S := Nat) [a, c] (p :: members) p r₁ r₂ 0 false 0 none = .ok servers ∧ Managed [a, c] [r₁, r₂] [0, 0] none servers

/-- C109 is violated: both servers manage a critic (the creators are closures over the variables of a comprehension). -/
theorem C109_violated_critic (a c : M) (members : List Nat) (p : Nat) (r₁ r₂ : Int) (dk : K) (ds : S) :
    a3cServers [a, c] (p :: members) p r₁ r₂ dk false ds none =
      .ok [⟨some c, some (c, r₁, dk), none, true, true⟩, ⟨some c, some (c, r₂, dk), none, true, true⟩] := by
  simp [a3cServers, lateCreators, gradServerHelper, Rate.expand, orDefault, List.replicate_succ, manageLoop, Srv.fresh, Srv.manage, Srv.start]

theorem C109_violated : ¬ C109_full := by
  intro h
  obtain ⟨servers, h1, h2⟩ := h 1 2 [] 0 0 0
  rw [C109_violated_critic] at h1
  cases h1
  have := h2.2 0 1 0 0 rfl rfl rfl
  revert this
  decide

/-- C109 is violated, with this consequence: if the critic has a parameter name that the actor has not, the first reduction of actor gradients ends
the reduction thread of the actor server (`KeyError`), and the gradients are lost. -/
theorem C109_violated_thread {G : Type} (cfg : GCfg G) (p : Proc G) (batch : List (Grad G)) (name : String) (h1 : p.pc = .gatherM batch)
    (h2 : ¬ batch.length < cfg.batchSize) (h3 : cfg.managed = true) (hc : name ∈ cfg.modelKeys)
    (ha : name ∉ PyDict.keys (Machin.Server.reduceBatch cfg.red batch)) :
    p.step cfg = ({ p with pc := .dead }, .lose (Machin.Server.reduceBatch cfg.red batch)) := by
  have : ¬ ∀ k ∈ cfg.modelKeys, k ∈ PyDict.keys (Machin.Server.reduceBatch cfg.red batch) := fun h => ha (h name hc)
  unfold Proc.step
  rw [h1]
  simp only [if_neg h2, h3, ↓reduceIte, if_neg this]

/-- C109, what holds: the last model is the right one, and so is every model when all are equal. -/
theorem C109_last_partial (models : List M) (m : M) :
    (lateCreators (models ++ [m])).length = (models ++ [m]).length ∧ (lateCreators (models ++ [m])).getLast? = some m ∧
    ((∀ x ∈ models, x = m) → lateCreators (models ++ [m]) = models ++ [m]) := by
  have e : lateCreators (models ++ [m]) = (models ++ [m]).map fun _ => m := by simp [lateCreators]
  rw [e]
  refine ⟨by simp, by simp, ?_⟩
  intro h
  rw [List.map_append, List.map_congr_left (g := id) fun x hx => (h x hx).symm]
  simp

example : lateCreators ["actor", "critic"] = ["critic", "critic"] := by decide

/-! ### C110: every reducer that clients choose is running -/

/-- Which processes run a reduction thread for server `i` after all members called the helper. -/
def running (creators : List M) (members : List Nat) (rate : Rate) (dk : K) (ds : S) (i me : Nat) : Bool :=
  match gradServerHelper (K := K) (S := S) creators members me rate dk none false ds none with
  | .error _ => false
  | .ok servers => match servers[i]? with
    | none => false
    | some s => s.running

/-- C110 in full: after the helper, every member, which `push` may choose, runs its reduction thread. -/
def C110_full : Prop :=
  ∀ (creators members : List Nat) (rates : List Int), rates.length = creators.length →
    ∀ i, i < creators.length → ∀ me ∈ members, running (K := Nat) (S := Nat) creators members (.list rates) 0 0 i me = true

/-- C110 is violated: no member but the first runs a reduction thread. -/
theorem C110_violated_only_primary (creators : List M) (p : Nat) (members : List Nat) (rate : Rate) (dk : K) (ds : S) (i me : Nat) (h : me ≠ p) :
    running creators (p :: members) rate dk ds i me = false := by
  unfold running gradServerHelper
  simp only [if_neg h]
  by_cases hi : i < creators.length
  · simp [hi, Srv.fresh]
  · simp [hi]

theorem C110_violated : ¬ C110_full := by
  intro h
  have := h [7] [0, 1] [1] rfl 0 (by decide) 1 (by decide)
  rw [C110_violated_only_primary _ _ _ _ _ _ _ _ (by decide)] at this
  cases this

/-- C110, the part that holds: the first member runs the threads of all its servers. -/
theorem C110_primary_partial (creators : List M) (p : Nat) (members : List Nat) (rates : List Int) (dk : K) (ds : S)
    (hr : rates.length = creators.length) (i : Nat) (hi : i < creators.length) : running creators (p :: members) (.list rates) dk ds i p = true := by
  obtain ⟨servers, h1, h2⟩ := manageLoop_nosched creators (orDefault creators.length dk none) rates
    (orDefault (K := S) creators.length ds none) (orDefault_length _ dk) hr (orDefault_length _ ds)
  have h3 := h2.2 i creators[i] (rates[i]'(by omega)) dk (by simp [hi]) (by rw [List.getElem?_eq_getElem]) (by simp [orDefault, hi])
  unfold running gradServerHelper
  simp only [↓reduceIte, Rate.expand]
  rw [h1]
  dsimp only
  rw [h3]

/-- The gradients that clients pushed to member `i`, in order. -/
def pushedTo {G : Type} (i : Nat) (as : List (GAct G)) : List (Grad G) :=
  as.filterMap fun | .push j g => if j = i then some g else none | .thread _ => none

theorem set_modify_other {G : Type} (l : List (Proc G)) (i p : Nat) (q : Proc G) (f : Proc G → Proc G) (h1 : i ≠ p) :
    ((l.set p q).modify p f)[i]? = l[i]? := by
  rw [List.getElem?_modify, List.getElem?_set_ne (Ne.symm h1)]
  simp [Ne.symm h1]

/-- C110 is violated, with this consequence: in every run where only the thread of the first member makes steps, the gradients that clients
push to another member stay in its queue for ever: nothing of them is applied, discarded or lost. -/
theorem C110_violated_stuck {G : Type} (cfg : GCfg G) (as : List (GAct G)) (w : World G) (i : Nat) (h : i ≠ w.primary)
    (ht : ∀ j, GAct.thread j ∈ as → j = w.primary) (p : Proc G) (hp : w.procs[i]? = some p) :
    (w.run cfg as).procs[i]? = some { p with secQ := p.secQ ++ pushedTo i as } := by
  induction as generalizing w p with
  | nil => simpa [World.run, pushedTo] using hp
  | cons a as ih =>
    have hrun : w.run cfg (a :: as) = (w.step cfg a).run cfg as := rfl
    rw [hrun]
    cases a with
    | push j g =>
      by_cases hj : j = i
      · subst hj
        have hp' : (w.step cfg (.push j g)).procs[j]? = some (p.pushS g) := by
          simp [World.step, hp]
        rw [ih (w.step cfg (.push j g)) h (fun k hk => ht k (by simp [hk])) (p.pushS g) hp']
        simp [pushedTo, Proc.pushS]
      · have hp' : (w.step cfg (.push j g)).procs[i]? = some p := by
          simp only [World.step]
          rw [List.getElem?_modify]
          simpa [hj] using hp
        rw [ih (w.step cfg (.push j g)) h (fun k hk => ht k (by simp [hk])) p hp']
        simp [pushedTo, hj]
    | thread j =>
      have hj : j = w.primary := ht j (by simp)
      have hpr : (w.step cfg (.thread j)).primary = w.primary := by
        simp only [World.step]
        cases w.procs[j]? with
        | none => rfl
        | some q =>
          dsimp only
          cases (q.step cfg).2 <;> rfl
      have hp' : (w.step cfg (.thread j)).procs[i]? = some p := by
        simp only [World.step]
        cases w.procs[j]? with
        | none => exact hp
        | some q =>
          dsimp only
          rw [hj]
          cases (q.step cfg).2 <;> simp only [World.effect]
          case send d => rw [set_modify_other _ _ _ _ _ h]; exact hp
          all_goals rw [List.getElem?_set_ne (Ne.symm h)]; exact hp
      rw [ih (w.step cfg (.thread j)) (by rw [hpr]; exact h) (fun k hk => by rw [hpr]; exact ht k (by simp [hk])) p hp']
      simp [pushedTo]

/-- Three members: the two gradients pushed to member 2 wait for ever, whatever the thread of member 0 does. -/
example (cfg : GCfg Nat) (g h : Grad Nat) :
    ((World.init 3 0).run cfg [.push 2 g, .thread 0, .push 0 g, .thread 0, .push 2 h, .thread 0]).procs[2]? = some ⟨[], [g, h], .idle⟩ :=
  C110_violated_stuck cfg _ _ 2 (by decide) (by intro j hj; simp at hj; exact hj) ⟨[], [], .idle⟩ rfl

/-- C110: a server that was stopped cannot be started again, and no call says so. -/
theorem C110_violated_restart (s : Srv M K S) (h : s.started = true) : s.stop.start = { s with running := false } ∧ s.stop.start.running = false := by
  simp [Srv.stop, Srv.start, h]

example : (Srv.fresh (M := Nat) (K := Nat) (S := Nat)).start.stop.start.running = false := by decide

end Machin.Algo
