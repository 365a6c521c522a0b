import Verif.Algo.Sched

/-! # Properties of schedulers, look-up and configurations (C99-C102) -/

namespace Machin.Algo

/-! ### C99: every scheduler advances -/

theorem foldl_stepSlot (ss : List Slot) (schs : List Sch) :
    ss.foldl stepSlot schs = schs.map fun x => { x with steps := x.steps + ss.count x.slot } := by
  induction ss generalizing schs with
  | nil => simp
  | cons s ss ih =>
    rw [List.foldl_cons, ih, stepSlot, List.map_map]
    apply List.map_congr_left
    intro x _
    by_cases h : x.slot = s
    · simp [h]; omega
    · have h' : ¬ s = x.slot := fun e => h e.symm
      simp [h, List.count_cons, h']

/-- After `n` calls of `update_lr_scheduler` a scheduler has advanced `n` times the number of times the function names it. -/
theorem C99_counts_partial (a : SAlgo) (n : Nat) (schs : List Sch) :
    iter (updateLr a) n schs = schs.map fun x => { x with steps := x.steps + n * a.stepped.count x.slot } := by
  induction n with
  | zero => simp [iter]
  | succ n ih =>
    rw [iter, ih, updateLr, foldl_stepSlot, List.map_map]
    apply List.map_congr_left
    intro x _
    simp [Nat.succ_mul, Nat.add_assoc]

theorem buildPlan_slots {args kwargs plan schs} (h : buildPlan args kwargs plan = .ok schs) :
    schs.map (fun x => x.slot) = plan.map (fun p => p.1) ∧ ∀ x ∈ schs, x.steps = 0 := by
  induction plan generalizing schs with
  | nil => simp only [buildPlan, Except.ok.injEq] at h; subst h; simp
  | cons p rest ih =>
    obtain ⟨s, i⟩ := p
    simp only [buildPlan] at h
    split at h
    · cases h
    · cases h
    · split at h
      · cases h
      · rename_i r hr
        simp only [Except.ok.injEq] at h
        subst h
        have := ih hr
        refine ⟨by simp [this.1], ?_⟩
        intro x hx
        rcases List.mem_cons.mp hx with rfl | hx
        · rfl
        · exact this.2 x hx

/-- C99 in full: after `n` calls of `update_lr_scheduler` every scheduler that the constructor created has advanced `n` times. -/
def C99_full : Prop :=
  ∀ (a : SAlgo) args kwargs schs, buildSchs a args kwargs = .ok schs → ∀ n, ∀ x ∈ iter (updateLr a) n schs, x.steps = n

/-- C99 is violated by SAC: the schedulers of the second critic and of the entropy weight never advance. -/
theorem C99_violated_sac (args : Option (List (List Nat))) (kwargs : Option (List (List (String × Nat)))) (schs : List Sch)
    (h : buildSchs .sac args kwargs = .ok schs) (n : Nat) :
    (∃ x ∈ iter (updateLr .sac) n schs, x.slot = .critic2) ∧ (∃ x ∈ iter (updateLr .sac) n schs, x.slot = .alpha) ∧
    ∀ x ∈ iter (updateLr .sac) n schs, (x.slot = .critic2 ∨ x.slot = .alpha) → x.steps = 0 := by
  have hb := buildPlan_slots h
  rw [C99_counts_partial]
  have hex : ∀ s ∈ (SAlgo.plan .sac).map (fun p => p.1), ∃ x ∈ schs.map (fun x : Sch => { x with steps := x.steps + n * (SAlgo.stepped .sac).count x.slot }), x.slot = s := by
    intro s hs
    rw [← hb.1, List.mem_map] at hs
    obtain ⟨x, hx, rfl⟩ := hs
    exact ⟨_, List.mem_map.mpr ⟨x, hx, rfl⟩, rfl⟩
  refine ⟨hex _ (by decide), hex _ (by decide), ?_⟩
  intro x hx hs
  obtain ⟨y, hy, rfl⟩ := List.mem_map.mp hx
  dsimp only at hs ⊢
  rw [hb.2 y hy]
  rcases hs with hs | hs <;> simp [hs, SAlgo.stepped]

theorem C99_violated : ¬ C99_full := by
  intro h
  have := h .sac none none _ rfl 1 ⟨.alpha, [], [], 0⟩ (by decide)
  cases this

/-- C99 holds for all other algorithms: whatever the arguments, every scheduler advances exactly once per call. -/
theorem C99_others_partial (a : SAlgo) (ha : a ≠ .sac) (args : Option (List (List Nat))) (kwargs : Option (List (List (String × Nat))))
    (schs : List Sch) (h : buildSchs a args kwargs = .ok schs) (n : Nat) : ∀ x ∈ iter (updateLr a) n schs, x.steps = n := by
  have hb := buildPlan_slots h
  rw [C99_counts_partial]
  intro x hx
  obtain ⟨y, hy, rfl⟩ := List.mem_map.mp hx
  have hs : y.slot ∈ a.plan.map (fun p => p.1) := by rw [← hb.1]; exact List.mem_map_of_mem hy
  have hc : ∀ s ∈ a.plan.map (fun p => p.1), a.stepped.count s = 1 := by
    cases a <;> first | exact absurd rfl ha | decide
  dsimp only
  rw [hb.2 y hy, hc _ hs]
  omega

/-- C99 for GAIL, also with the schedulers it shares with the PPO or TRPO it was given. -/
theorem C99_gail_partial (a : SAlgo) (ha : a = .ppo ∨ a = .trpo) (args args' : Option (List (List Nat)))
    (kwargs kwargs' : Option (List (List (String × Nat)))) (inner own : List Sch) (hi : buildSchs a args kwargs = .ok inner)
    (ho : buildSchs .gail args' kwargs' = .ok own) (n : Nat) : ∀ x ∈ iter (updateLr .gail) n (gailSchs inner own), x.steps = n := by
  have h1 := buildPlan_slots hi
  have h2 := buildPlan_slots ho
  rw [C99_counts_partial]
  intro x hx
  obtain ⟨y, hy, rfl⟩ := List.mem_map.mp hx
  rcases List.mem_append.mp hy with hy | hy
  · have hs : y.slot ∈ a.plan.map (fun p => p.1) := by rw [← h1.1]; exact List.mem_map_of_mem hy
    have hc : ∀ s ∈ a.plan.map (fun p => p.1), (SAlgo.stepped .gail).count s = 1 := by
      rcases ha with rfl | rfl <;> decide
    dsimp only
    rw [h1.2 y hy, hc _ hs]
    omega
  · have hs : y.slot ∈ (SAlgo.plan .gail).map (fun p => p.1) := by rw [← h2.1]; exact List.mem_map_of_mem hy
    have hc : ∀ s ∈ (SAlgo.plan .gail).map (fun p => p.1), (SAlgo.stepped .gail).count s = 1 := by decide
    dsimp only
    rw [h2.2 y hy, hc _ hs]
    omega

/-- C99 for MADDPG: every entry of both lists. -/
theorem C99_maddpg_partial (schs : List Sch × List Sch) (n : Nat) :
    iter updateLrMaddpg n schs = (schs.1.map fun x => { x with steps := x.steps + n }, schs.2.map fun x => { x with steps := x.steps + n }) := by
  induction n with
  | zero => simp [iter]
  | succ n ih =>
    rw [iter, ih]
    simp [updateLrMaddpg, List.map_map, Function.comp_def, Nat.add_assoc]

example : ∃ schs, buildSchs .td3 (some [[1], [2], [3]]) none = .ok schs ∧ (iter (updateLr .td3) 5 schs).map (fun x => (x.slot, x.steps)) =
    [(.actor, 5), (.critic, 5), (.critic2, 5)] := ⟨_, rfl, by decide⟩

example : ∃ i o, buildSchs .ppo none none = .ok i ∧ buildSchs .gail none none = .ok o ∧
    (iter (updateLr .gail) 3 (gailSchs i o)).map (fun x => x.steps) = [3, 3, 3] := ⟨_, _, rfl, rfl, by decide⟩

/-! ### C100: schedulers get the arguments given for them -/

/-- C100 in full: leaving the arguments out works for every algorithm; given arguments reach the scheduler they are meant for, the
first tuple as positional arguments, the dictionary as keyword arguments. -/
def C100_full : Prop :=
  (∀ a : SAlgo, ∃ schs, buildSchs a a.dflt a.dflt = .ok schs) ∧
  (∀ (a : SAlgo) (args : List (List Nat)) (kwargs : List (List (String × Nat))) schs, buildSchs a (some args) (some kwargs) = .ok schs →
    ∀ x ∈ schs, ∃ i, (x.slot, i) ∈ a.plan ∧ ∃ p k, args[i]? = some p ∧ kwargs[i]? = some k ∧ x.args = p.map .val ∧ x.kwargs = k) ∧
  (∀ subs critics args kwargs, ∀ x ∈ (buildMaddpg subs critics (some args) (some kwargs)).1, ∃ i j, x.slot = .actorOf i j ∧
    ∃ p k, args.1[i]? = some p ∧ kwargs.1[i]? = some k ∧ x.args = p.map .val ∧ x.kwargs = k)

/-- C100 is violated by PPO, TRPO, IMPALA and both Apex algorithms: without arguments the constructor raises `IndexError`, because the
default is the empty tuple. -/
theorem C100_violated_default (a : SAlgo) (ha : a ∈ [SAlgo.ppo, .trpo, .impala, .dqnApex, .ddpgApex]) :
    buildSchs a a.dflt a.dflt = .error .index := by
  revert a
  decide

/-- C100: IMPALA also refuses `None`, which is what its own `generate_config` writes: `TypeError`. -/
theorem C100_violated_impala (kwargs : Option (List (List (String × Nat)))) : buildSchs .impala none kwargs = .error .type := rfl

/-- C100 is violated by MADDPG: no scheduler gets any keyword argument; their names are passed as further positional arguments. -/
theorem C100_violated_maddpg (subs : List Nat) (critics : Nat) (args : List (List Nat) × List (List Nat))
    (kwargs : List (List (String × Nat)) × List (List (String × Nat))) :
    ∀ x ∈ (buildMaddpg subs critics (some args) (some kwargs)).1 ++ (buildMaddpg subs critics (some args) (some kwargs)).2, x.kwargs = [] ∧
      ∃ p k, (p ∈ args.1 ∨ p ∈ args.2) ∧ (k ∈ kwargs.1 ∨ k ∈ kwargs.2) ∧ x.args = p.map .val ++ k.map fun kv => .key kv.1 := by
  intro x hx
  simp only [buildMaddpg, Option.getD_some, List.mem_append, List.mem_flatMap, List.mem_map] at hx
  rcases hx with ⟨e, he, j, _, rfl⟩ | ⟨e, he, rfl⟩
  · have h1 := List.of_mem_zip (List.of_mem_zip (List.of_mem_zip he).2).2
    exact ⟨rfl, _, _, .inl h1.1, .inl h1.2, rfl⟩
  · have h1 := List.of_mem_zip (List.of_mem_zip he).2
    exact ⟨rfl, _, _, .inr h1.1, .inr h1.2, rfl⟩

theorem C100_violated : ¬ C100_full := by
  intro h
  obtain ⟨schs, hs⟩ := h.1 .ppo
  rw [C100_violated_default .ppo (by decide)] at hs
  cases hs

/-- C100 holds for the default of the other algorithms. -/
theorem C100_default_partial (a : SAlgo) (ha : a ∈ [SAlgo.dqn, .ddpg, .td3, .sac, .a2c, .gail, .ars]) :
    ∃ schs, buildSchs a a.dflt a.dflt = .ok schs ∧ ∀ x ∈ schs, x.args = [] ∧ x.kwargs = [] := by
  simp only [List.mem_cons, List.not_mem_nil, or_false] at ha
  rcases ha with rfl | rfl | rfl | rfl | rfl | rfl | rfl <;> exact ⟨_, rfl, by decide⟩

/-- C100 holds for given arguments: with enough entries the constructor succeeds, and every scheduler gets its own. -/
theorem C100_given_partial (a : SAlgo) (args : List (List Nat)) (kwargs : List (List (String × Nat))) :
    ((∀ p ∈ a.plan, p.2 < args.length ∧ p.2 < kwargs.length) → ∃ schs, buildSchs a (some args) (some kwargs) = .ok schs) ∧
    ∀ schs, buildSchs a (some args) (some kwargs) = .ok schs → schs.map (fun x => x.slot) = a.plan.map (fun p => p.1) ∧
      ∀ x ∈ schs, ∃ i, (x.slot, i) ∈ a.plan ∧ ∃ p k, args[i]? = some p ∧ kwargs[i]? = some k ∧ x.args = p.map .val ∧ x.kwargs = k := by
  have key : ∀ plan : List (Slot × Nat), ((∀ p ∈ plan, p.2 < args.length ∧ p.2 < kwargs.length) → ∃ schs, buildPlan (some args) (some kwargs) plan = .ok schs) ∧
      ∀ schs, buildPlan (some args) (some kwargs) plan = .ok schs →
        ∀ x ∈ schs, ∃ i, (x.slot, i) ∈ plan ∧ ∃ p k, args[i]? = some p ∧ kwargs[i]? = some k ∧ x.args = p.map .val ∧ x.kwargs = k := by
    intro plan
    induction plan with
    | nil =>
      refine ⟨fun _ => ⟨[], rfl⟩, ?_⟩
      intro schs h
      simp only [buildPlan, Except.ok.injEq] at h
      subst h
      simp
    | cons q rest ih =>
      obtain ⟨s, i⟩ := q
      constructor
      · intro h
        obtain ⟨r, hr⟩ := ih.1 fun p hp => h p (by simp [hp])
        have h0 := h (s, i) (by simp)
        refine ⟨⟨s, (args[i]'h0.1).map .val, kwargs[i]'h0.2, 0⟩ :: r, ?_⟩
        simp only [buildPlan, item, List.getElem?_eq_getElem h0.1, List.getElem?_eq_getElem h0.2, hr]
      · intro schs h
        simp only [buildPlan, item] at h
        cases h1 : args[i]? with
        | none => simp [h1] at h
        | some p =>
          cases h2 : kwargs[i]? with
          | none => simp [h1, h2] at h
          | some k =>
            simp only [h1, h2] at h
            split at h
            · cases h
            · rename_i r hr
              simp only [Except.ok.injEq] at h
              subst h
              intro x hx
              rcases List.mem_cons.mp hx with rfl | hx
              · exact ⟨i, by simp, p, k, h1, h2, rfl, rfl⟩
              · obtain ⟨i', hm, rest⟩ := ih.2 r hr x hx
                exact ⟨i', by simp [hm], rest⟩
  refine ⟨(key a.plan).1, fun schs h => ⟨(buildPlan_slots h).1, (key a.plan).2 schs h⟩⟩

/-- C100: which arguments a scheduler gets: the entry at its own position in the tuples, in the order of the attributes (actor, critic, second
critic); only SAC's two critics share an entry. -/
theorem C100_entry_partial (a : SAlgo) (args : List (List Nat)) (kwargs : List (List (String × Nat))) (schs : List Sch)
    (h : buildSchs a (some args) (some kwargs) = .ok schs) (k : Nat) (x : Sch) (hx : schs[k]? = some x) :
    ∃ p q, args[if a = .sac ∧ 2 ≤ k then k - 1 else k]? = some p ∧ kwargs[if a = .sac ∧ 2 ≤ k then k - 1 else k]? = some q ∧
      x.args = p.map .val ∧ x.kwargs = q := by
  have key : ∀ (plan : List (Slot × Nat)) (schs : List Sch), buildPlan (some args) (some kwargs) plan = .ok schs →
      ∀ (k : Nat) (x : Sch), schs[k]? = some x → ∃ i p q, (plan.map (·.2))[k]? = some i ∧ args[i]? = some p ∧ kwargs[i]? = some q ∧
        x.args = p.map .val ∧ x.kwargs = q := by
    intro plan
    induction plan with
    | nil =>
      intro schs h k x hx
      simp only [buildPlan, Except.ok.injEq] at h
      subst h
      simp at hx
    | cons e rest ih =>
      intro schs h k x hx
      obtain ⟨s, i⟩ := e
      simp only [buildPlan, item] at h
      cases h1 : args[i]? with
      | none => simp [h1] at h
      | some p =>
        cases h2 : kwargs[i]? with
        | none => simp [h1, h2] at h
        | some q =>
          simp only [h1, h2] at h
          cases h3 : buildPlan (some args) (some kwargs) rest with
          | error e => simp [h3] at h
          | ok r =>
            simp only [h3, Except.ok.injEq] at h
            subst h
            cases k with
            | zero =>
              simp at hx
              subst hx
              exact ⟨i, p, q, by simp, h1, h2, rfl, rfl⟩
            | succ k =>
              simp only [List.getElem?_cons_succ] at hx
              obtain ⟨i', p', q', e1, e2, e3, e4⟩ := ih r h3 k x hx
              exact ⟨i', p', q', by simpa using e1, e2, e3, e4⟩
  obtain ⟨i, p, q, e1, e2, e3, e4⟩ := key a.plan schs h k x hx
  have hi : i = if a = .sac ∧ 2 ≤ k then k - 1 else k := by
    have : k < 4 := by
      rcases Nat.lt_or_ge k 4 with hc | hc
      · exact hc
      · rw [List.getElem?_eq_none] at e1
        · cases e1
        · cases a <;> simp [SAlgo.plan] <;> omega
    rcases (by omega : k = 0 ∨ k = 1 ∨ k = 2 ∨ k = 3) with rfl | rfl | rfl | rfl <;>
      cases a <;> simp [SAlgo.plan] at e1 ⊢ <;> omega
  rw [← hi]
  exact ⟨p, q, e2, e3, e4⟩

/-- C100 for MADDPG without keyword arguments: one scheduler for every optimizer, each with the tuple of its actor. -/
theorem C100_maddpg_partial (subs : List Nat) (critics : Nat) (args : List (List Nat) × List (List Nat))
    (h1 : args.1.length = subs.length) (h2 : args.2.length = critics) (i j m : Nat) (hm : subs[i]? = some m) (hj : j < m) :
    ∃ p, args.1[i]? = some p ∧ (⟨.actorOf i j, p.map .val, [], 0⟩ : Sch) ∈ (buildMaddpg subs critics (some args) none).1 := by
  have hi : i < subs.length := (List.getElem?_eq_some_iff.mp hm).1
  have hi' : i < args.1.length := by omega
  refine ⟨args.1[i], List.getElem?_eq_getElem hi', ?_⟩
  simp only [buildMaddpg, Option.getD_some, Option.getD_none, List.mem_flatMap, List.mem_map]
  refine ⟨(i, m, args.1[i], []), ?_, j, List.mem_range.mpr hj, by simp⟩
  rw [List.mem_iff_getElem?]
  refine ⟨i, ?_⟩
  simp [List.getElem?_zip_eq_some, List.getElem?_eq_getElem hi', hi]
  exact (List.getElem?_eq_some_iff.mp hm).2

/-- C100 for MADDPG without keyword arguments, exactly: the schedulers of the actors come one actor after the other, one for each of its optimizers and all with
the tuple of the actor, and the critics have one each, with their own tuple; none has stepped. -/
theorem C100_maddpg_exact_partial (subs : List Nat) (critics : Nat) (args : List (List Nat) × List (List Nat))
    (h1 : args.1.length = subs.length) (h2 : args.2.length = critics) :
    (buildMaddpg subs critics (some args) none).1 =
      (List.range subs.length).flatMap (fun i => (List.range (subs.getD i 0)).map fun j => ⟨.actorOf i j, (args.1.getD i []).map .val, [], 0⟩) ∧
    (buildMaddpg subs critics (some args) none).2 =
      (List.range critics).map (fun i => ⟨.criticOf i, (args.2.getD i []).map .val, [], 0⟩) := by
  simp only [buildMaddpg, Option.getD_some, Option.getD_none]
  constructor
  · have hz : (List.range subs.length).zip (subs.zip (args.1.zip (List.replicate subs.length ([] : List (String × Nat))))) =
        (List.range subs.length).map fun i => (i, subs.getD i 0, args.1.getD i [], []) := by
      apply List.ext_getElem
      · simp [h1]
      · intro i hi hi'
        simp only [List.length_map, List.length_range] at hi'
        have hi1 : i < args.1.length := by omega
        simp [List.getD_eq_getElem?_getD, List.getElem?_eq_getElem hi1, List.getElem?_eq_getElem hi']
    rw [hz, List.flatMap_map]
    simp
  · have hz : (List.range critics).zip (args.2.zip (List.replicate critics ([] : List (String × Nat)))) =
        (List.range critics).map fun i => (i, args.2.getD i [], []) := by
      apply List.ext_getElem
      · simp [h2]
      · intro i hi hi'
        simp only [List.length_map, List.length_range] at hi'
        have hi1 : i < args.2.length := by omega
        simp [List.getD_eq_getElem?_getD, List.getElem?_eq_getElem hi1]
    rw [hz, List.map_map]
    simp [Function.comp_def]

example : buildSchs .sac (some [[1], [2], [3]]) (some [[("gamma", 5)], [], [("gamma", 6)]]) =
    .ok [⟨.actor, [.val 1], [("gamma", 5)], 0⟩, ⟨.critic, [.val 2], [], 0⟩, ⟨.critic2, [.val 2], [], 0⟩, ⟨.alpha, [.val 3], [("gamma", 6)], 0⟩] := by
  decide

example : buildMaddpg [2, 1] 1 (some ([[7], [8]], [[9]])) (some ([[("gamma", 1)], []], [[]])) =
    ([⟨.actorOf 0 0, [.val 7, .key "gamma"], [], 0⟩, ⟨.actorOf 0 1, [.val 7, .key "gamma"], [], 0⟩, ⟨.actorOf 1 0, [.val 8], [], 0⟩],
      [⟨.criticOf 0, [.val 9], [], 0⟩]) := by decide

/-! ### C101: a configuration can be used again -/

/-- C101 in full: `init_from_config` leaves the configuration as it was. -/
def C101_full : Prop := ∀ (a : CAlgo) (envs : Envs) (c : FrameCfg), (initFromConfig a envs c).1 = c

/-- Names found in torch, as in the default configurations: `"Adam"` and `"MSELoss"`. -/
def torchEnvs : Envs :=
  let e : String → Nat → Env := fun s n => ⟨fun x => if x = s then some (.cls true n) else none, fun _ => none, fun _ => .error .attribute, fun _ => false⟩
  ⟨e "Adam" 1, e "StepLR" 2, e "MSELoss" 3⟩

/-- The default configuration. -/
def defaultCfg : FrameCfg := ⟨some (.str "Adam"), some (.str "MSELoss"), none⟩

theorem C101_violated : ¬ C101_full := by
  intro h
  have := h .ddpg torchEnvs defaultCfg
  revert this
  decide

/-- C101: for DDPG, HDDPG, TD3, DDPGPer and SAC a second frame cannot be made from a configuration whose criterion names a loss class:
the first call has replaced the name by an instance, and the second call calls it, `TypeError`. -/
theorem C101_violated_second (a : CAlgo) (ha : a ∈ [CAlgo.ddpg, .hddpg, .td3, .ddpgPer, .sac]) (envs : Envs) (c : FrameCfg) (f : Frame) (id : Nat)
    (b : Bool) (hopt : ∀ o, lookNone (validClass envs.optim) c.optimizer = .ok o → ∃ i, o = some (.cls true i))
    (hcrit : lookNone (validCriterion envs.loss) c.criterion = .ok (some (.cls b id)))
    (h1 : (initFromConfig a envs c).2 = .ok f) : (initFromConfig a envs (initFromConfig a envs c).1).2 = .error .type := by
  have hc : a.copies = false := by
    revert a
    intro a ha
    simp only [List.mem_cons, List.not_mem_nil, or_false] at ha
    rcases ha with rfl | rfl | rfl | rfl | rfl <;> simp [CAlgo.copies]
  revert h1
  unfold initFromConfig
  cases ho : lookNone (validClass envs.optim) c.optimizer with
  | error e => simp
  | ok opt =>
    obtain ⟨i, rfl⟩ := hopt opt ho
    simp only [hcrit, callCriterion]
    split
    · simp
    · intro _
      simp [hc, lookNone, validClass, validCriterion, isCallable]

/-- C101 holds for DQN, DQNPer and A2C, whatever happens, and for all of them when the call raises. -/
theorem C101_kept_partial (a : CAlgo) (envs : Envs) (c : FrameCfg) :
    (a ∈ [CAlgo.dqn, .dqnPer, .a2c] → (initFromConfig a envs c).1 = c) ∧
    (∀ e, (initFromConfig a envs c).2 = .error e → (initFromConfig a envs c).1 = c) := by
  constructor
  · intro ha
    have hc : a.copies = true := by
      simp only [List.mem_cons, List.not_mem_nil, or_false] at ha
      rcases ha with rfl | rfl | rfl <;> rfl
    unfold initFromConfig
    split
    · rfl
    · split
      · rfl
      · split
        · rfl
        · split
          · rfl
          · simp [hc]
  · intro e
    unfold initFromConfig
    split
    · intro _; rfl
    · split
      · intro _; rfl
      · split
        · intro _; rfl
        · split
          · intro _; rfl
          · intro h; cases h

/-- The hypotheses of `C101_violated_second` hold for the default configuration. -/
example : (initFromConfig .sac torchEnvs defaultCfg).2 = .ok ⟨some (.cls true 1), .instance_ 3, none⟩ ∧
    lookNone (validCriterion torchEnvs.loss) defaultCfg.criterion = .ok (some (.cls true 3)) ∧
    (initFromConfig .sac torchEnvs (initFromConfig .sac torchEnvs defaultCfg).1).2 = .error .type ∧
    (initFromConfig .dqn torchEnvs (initFromConfig .dqn torchEnvs defaultCfg).1).2 = .ok ⟨some (.cls true 1), .instance_ 3, none⟩ := by decide

/-! ### C102: look-up of classes -/

/-- C102 in full: the look-up functions return an object or raise. -/
def C102_full : Prop :=
  ∀ (env : Env) (o : PObj), validClass env o ≠ .ok none ∧ validCriterion env o ≠ .ok none

/-- C102 is violated: an unknown name without a dot gives `None`, with no exception, from all three functions. -/
theorem C102_violated_unknown (env : Env) (s : String) (ht : env.torch s = none) (hg : env.globals s = none) (hd : env.dotted s = false) :
    validClass env (.str s) = .ok none ∧ validCriterion env (.str s) = .ok none := by
  simp [validClass, validCriterion, ht, hg, importOrNone, hd]

theorem C102_violated : ¬ C102_full := by
  intro h
  have := (h torchEnvs.sched (.str "StepLr")).1
  revert this
  decide

/-- C102: so a misspelt scheduler in a configuration is silently ignored: the frame is built without a scheduler. -/
theorem C102_violated_silent (a : CAlgo) (envs : Envs) (c : FrameCfg) (s : String) (opt : Option PObj) (cr : Option PObj) (crit : PObj)
    (hs : c.scheduler = some (.str s)) (ht : envs.sched.torch s = none) (hg : envs.sched.globals s = none) (hd : envs.sched.dotted s = false)
    (ho : lookNone (validClass envs.optim) c.optimizer = .ok opt) (hc : lookNone (validCriterion envs.loss) c.criterion = .ok cr)
    (hcall : callCriterion cr = .ok crit) : (initFromConfig a envs c).2 = .ok ⟨opt, crit, none⟩ := by
  simp [initFromConfig, ho, hc, hcall, hs, (C102_violated_unknown envs.sched s ht hg hd).1]

/-- C102, the part that holds for optimizers and schedulers: a class of the right kind is returned itself; a name of the torch module
gives that entry; a name found in the globals gives that class; a dotted name is imported; anything that is neither a class of the
right kind nor a string raises `ValueError`. -/
theorem C102_class_partial (env : Env) :
    (∀ id, validClass env (.cls true id) = .ok (some (.cls true id))) ∧
    (∀ s o, env.torch s = some o → validClass env (.str s) = .ok (some o)) ∧
    (∀ s id, env.torch s = none → env.globals s = some (.cls true id) → validClass env (.str s) = .ok (some (.cls true id))) ∧
    (∀ s o, env.torch s = none → env.globals s = none → env.dotted s = true → env.import_ s = .ok o → validClass env (.str s) = .ok (some o)) ∧
    (∀ o, (∀ s, o ≠ .str s) → (∀ id, o ≠ .cls true id) → validClass env o = .error .value) := by
  refine ⟨fun _ => rfl, fun s o h => by simp [validClass, h], fun s id h1 h2 => by simp [validClass, h1, h2, issubclass],
    fun s o h1 h2 h3 h4 => by simp [validClass, h1, h2, importOrNone, h3, h4], ?_⟩
  intro o h1 h2
  cases o with
  | cls b id => cases b with
    | true => exact absurd rfl (h2 id)
    | false => rfl
  | str s => exact absurd rfl (h1 s)
  | callable id => rfl
  | instance_ c => rfl
  | other id => rfl

/-- C102: what a criterion becomes: a class is instantiated; a function is called without arguments and what it returns is handed on as the criterion; an
instance and `None` cannot be called so, which raises `TypeError`. -/
theorem C102_called_partial (a : CAlgo) (envs : Envs) (c : FrameCfg) (opt cr : Option PObj)
    (ho : lookNone (validClass envs.optim) c.optimizer = .ok opt) (hc : lookNone (validCriterion envs.loss) c.criterion = .ok cr) (hs : c.scheduler = none) :
    (∀ b id, cr = some (.cls b id) → (initFromConfig a envs c).2 = .ok ⟨opt, .instance_ id, none⟩) ∧
    (∀ id, cr = some (.callable id) → (initFromConfig a envs c).2 = .ok ⟨opt, .other id, none⟩) ∧
    ((∀ b id, cr ≠ some (.cls b id)) → (∀ id, cr ≠ some (.callable id)) → (initFromConfig a envs c).2 = .error .type) := by
  refine ⟨?_, ?_, ?_⟩
  · rintro b id rfl
    simp [initFromConfig, ho, hc, hs, callCriterion]
  · rintro id rfl
    simp [initFromConfig, ho, hc, hs, callCriterion]
  · intro h1 h2
    have : callCriterion cr = .error .type := by
      cases cr with
      | none => rfl
      | some o =>
        cases o with
        | cls b id => exact absurd rfl (h1 b id)
        | callable id => exact absurd rfl (h2 id)
        | _ => rfl
    simp [initFromConfig, ho, hc, this]

/-- C102: nothing else is returned: an object is accepted only as a class of the right kind, and what a name gives is an entry of the torch module, a
class of the right kind from the globals, what was imported under a dotted name, or `None`. -/
theorem C102_kind_partial (env : Env) (o r : PObj) (h : validClass env o = .ok (some r)) :
    (∃ id, o = .cls true id ∧ r = o) ∨ ∃ s, o = .str s ∧
      (env.torch s = some r ∨
       (env.torch s = none ∧ env.globals s = some r ∧ ∃ id, r = .cls true id) ∨
       (env.torch s = none ∧ env.dotted s = true ∧ env.import_ s = .ok r)) := by
  have himp : ∀ s, importOrNone env s = .ok (some r) → env.dotted s = true ∧ env.import_ s = .ok r := by
    intro s hi
    simp only [importOrNone] at hi
    split at hi
    · rename_i hd
      split at hi
      · cases hi
      · rename_i o' ho
        simp only [Except.ok.injEq, Option.some.injEq] at hi
        subst hi
        exact ⟨hd, ho⟩
    · cases hi
  cases o with
  | cls b id =>
    cases b with
    | true =>
      simp only [validClass, Except.ok.injEq, Option.some.injEq] at h
      exact .inl ⟨id, rfl, h.symm⟩
    | false => cases h
  | str s =>
    refine .inr ⟨s, rfl, ?_⟩
    simp only [validClass] at h
    cases h1 : env.torch s with
    | some t =>
      simp only [h1, Except.ok.injEq, Option.some.injEq] at h
      exact .inl (by rw [h])
    | none =>
      simp only [h1] at h
      cases h2 : env.globals s with
      | none =>
        simp only [h2] at h
        exact .inr (.inr ⟨rfl, himp s h⟩)
      | some g =>
        simp only [h2] at h
        cases g with
        | cls b id =>
          cases b with
          | true =>
            simp only [issubclass, Except.ok.injEq, Option.some.injEq] at h
            exact .inr (.inl ⟨rfl, by rw [h], id, h.symm⟩)
          | false =>
            simp only [issubclass] at h
            exact .inr (.inr ⟨rfl, himp s h⟩)
        | _ => simp [issubclass] at h
  | _ => cases h

/-- C102, the part that holds for criteria: every callable is returned itself, other objects but strings raise `ValueError`. -/
theorem C102_criterion_partial (env : Env) (o : PObj) (h : ∀ s, o ≠ .str s) :
    validCriterion env o = if isCallable o = true then .ok (some o) else .error .value := by
  cases o with
  | str s => exact absurd rfl (h s)
  | _ => rfl

/-- C102 for models: the function for models does raise for unknown names; an undotted name or an object is accepted only as a model
class. -/
theorem C102_models_partial (env : Env) (o r : PObj) (h : validModel env o = .ok r) :
    (∃ id, r = .cls true id) ∨ ∃ s, o = .str s ∧ env.dotted s = true ∧ env.import_ s = .ok r := by
  cases o with
  | cls b id => cases b with
    | true => simp only [validModel, Except.ok.injEq] at h; exact .inl ⟨id, h.symm⟩
    | false => cases h
  | str s =>
    simp only [validModel] at h
    have hlast : (if env.dotted s = true then env.import_ s else .error .value) = .ok r → env.dotted s = true ∧ env.import_ s = .ok r := by
      intro h
      split at h
      · rename_i hd; exact ⟨hd, h⟩
      · cases h
    split at h
    · exact .inr ⟨s, rfl, hlast h⟩
    · rename_i g hg
      cases g with
      | cls b id =>
        cases b with
        | true => simp only [issubclass, Except.ok.injEq] at h; exact .inl ⟨id, h.symm⟩
        | false => simp only [issubclass] at h; exact .inr ⟨s, rfl, hlast h⟩
      | _ => simp [issubclass] at h
  | _ => cases h

example : (initFromConfig .dqn torchEnvs { defaultCfg with scheduler := some (.str "StepLr") }).2 = .ok ⟨some (.cls true 1), .instance_ 3, none⟩ ∧
    (initFromConfig .dqn torchEnvs { defaultCfg with scheduler := some (.str "StepLR") }).2 = .ok ⟨some (.cls true 1), .instance_ 3, some (.cls true 2)⟩ := by
  decide

end Machin.Algo
