import Verif.Launch.Lemmas

/-! # Properties C188-C191: generating, checking and launching configurations -/

namespace Machin.Launch

open Config (Name)
open Frames

/-- The setting `k` in the `frame_config` of a configuration. -/
def setting (c : Conf) (k : Key) : Option String :=
  match c.item (nm "frame_config") with
  | .ok (.dict d) => d.get? k
  | _ => none

/-- The default of the parameter `k` of the constructor of a framework. -/
def constructorDefault (al : Algo) (k : Key) : Option String := al.chain.head?.bind fun l => l.kw.lookup k

/-! ### C188: generated settings and the defaults of the constructors -/

/-- C188. A generated setting is the default of the parameter of the constructor with its name: a framework made from the generated configuration is
the one made without settings. -/
def C188_full : Prop :=
  ∀ (al : Algo) (c : Conf) (k : Key) (s t : String), generateConfig al (.dict []) = .ok c → setting c k = some s →
    constructorDefault al k = some t → s = t

/-- The settings that differ: framework, key, generated, default of the constructor. -/
def deviations : List (Algo × Key × String × String) :=
  [(.rainbow, .updateRate, "0.005", "0.001"), (.hddpg, .updateRate, "0.001", "0.005"), (.ddpgPer, .updateRate, "0.001", "0.005"),
   (.sac, .updateRate, "0.001", "0.005"), (.trpo, .actorLearningRate, "0.001", "0.003"), (.ars, .learningRate, "0.001", "0.01"),
   (.ppo, .lrSchedulerArgs, "None", "()"), (.ppo, .lrSchedulerKwargs, "None", "()"), (.trpo, .lrSchedulerArgs, "None", "()"),
   (.trpo, .lrSchedulerKwargs, "None", "()"), (.dqnApex, .lrSchedulerArgs, "None", "()"), (.dqnApex, .lrSchedulerKwargs, "None", "()"),
   (.ddpgApex, .lrSchedulerArgs, "None", "()"), (.ddpgApex, .lrSchedulerKwargs, "None", "()"), (.impala, .lrSchedulerArgs, "None", "()"),
   (.impala, .lrSchedulerKwargs, "None", "()")]

theorem generated_setting (al : Algo) (c : Conf) (h : generateConfig al (.dict []) = .ok c) (k : Key) :
    setting c k = PyDict.get? (generated al) k := by
  obtain ⟨r, h1, ⟨g, h2, h3⟩, -⟩ := (generateConfig_dict al []).1 [] (Or.inr ⟨rfl, rfl⟩)
  rw [h1] at h
  simp only [Except.ok.injEq] at h
  subst h
  simp [setting, Conf.item, h2, h3]

/-- C188, partial: the generated settings differ from the defaults of the constructors in exactly the cases of the table. The last ones have no effect as
long as no scheduler is set. -/
theorem C188_partial (al : Algo) (c : Conf) (k : Key) (s t : String) (h : generateConfig al (.dict []) = .ok c) (hs : setting c k = some s)
    (ht : constructorDefault al k = some t) : s ≠ t ↔ (al, k, s, t) ∈ deviations := by
  rw [generated_setting al c h] at hs
  have hmem : (k, s) ∈ generated al := PyDict.mem_of_get? hs
  have check : ∀ p ∈ generated al, ∀ u, constructorDefault al p.1 = some u → (p.2 ≠ u ↔ (al, p.1, p.2, u) ∈ deviations) := by
    have hb : ((generated al).all fun p => match constructorDefault al p.1 with
        | some u => decide (p.2 ≠ u ↔ (al, p.1, p.2, u) ∈ deviations)
        | none => true) = true := by
      cases al <;> decide +kernel
    intro p hp u hu
    have := List.all_eq_true.1 hb p hp
    rw [hu] at this
    exact of_decide_eq_true this
  exact check (k, s) hmem t ht

/-- C188, partial: a generated configuration has exactly the generated keys (`Algo.keys`), each with one value. -/
theorem C188_keys_partial (al : Algo) (c : Conf) (h : generateConfig al (.dict []) = .ok c) (k : Key) :
    (setting c k).isSome ↔ k ∈ al.keys := by
  rw [generated_setting al c h, PyDict.get?_isSome_iff]
  have : PyDict.keys (generated al) = al.keys := by cases al <;> decide +kernel
  rw [this]

/-- C188, violated: each entry of the table occurs. -/
theorem C188_violated_each (al : Algo) (k : Key) (s t : String) (h : (al, k, s, t) ∈ deviations) :
    ∃ c, generateConfig al (.dict []) = .ok c ∧ setting c k = some s ∧ constructorDefault al k = some t ∧ s ≠ t := by
  obtain ⟨r, h1, -, -⟩ := (generateConfig_dict al []).1 [] (Or.inr ⟨rfl, rfl⟩)
  refine ⟨.dict r, h1, ?_⟩
  rw [generated_setting al _ h1]
  have hb : (deviations.all fun x => decide (PyDict.get? (generated x.1) x.2.1 = some x.2.2.1 ∧ constructorDefault x.1 x.2.1 = some x.2.2.2 ∧
      x.2.2.1 ≠ x.2.2.2)) = true := by decide +kernel
  exact of_decide_eq_true (List.all_eq_true.1 hb _ h)

theorem C188_violated : ¬ C188_full := by
  intro h
  obtain ⟨c, h1, h2, h3, h4⟩ := C188_violated_each .rainbow .updateRate "0.005" "0.001" (by decide)
  exact h4 (h _ _ _ _ _ h1 h2 h3)

example : (generateConfig .td3 (.dict [])).toOption.bind (fun c => setting c .models) =
    some "['Actor', 'Actor', 'Critic', 'Critic', 'Critic', 'Critic']" ∧ constructorDefault .td3 .updateRate = some "0.001" := by decide +kernel

/-! ### C189: what generating changes -/

/-- C189: every generated setting has its default value, given or not (that given ones are lost is C56); other given settings are kept; the name of the framework,
`batch_num`, `gpus` and the numbers of processes are written; everything else is kept. -/
theorem C189_algorithm (al : Algo) (d : PyDict Name Val) (f : PyDict Key String)
    (hf : d.get? (nm "frame_config") = some (.dict f) ∨ d.get? (nm "frame_config") = none ∧ f = []) :
    ∃ c, generateAlgorithm (name al) (some (.dict d)) = .ok c ∧
      (∀ k ∈ al.keys, ∀ c0, generateConfig al (.dict []) = .ok c0 → setting c k = setting c0 k) ∧
      (∀ k, k ∉ al.keys → setting c k = f.get? k) ∧
      c.item (nm "frame") = .ok (.text (name al)) ∧
      (∀ n v, n ∉ ["frame", "frame_config", "batch_num", "gpus", "num_processes", "num_nodes"].map nm → d.get? n = some v → c.item n = .ok v) := by
  obtain ⟨r, h1, ⟨g, h2, h3⟩, h4⟩ := generateAlgorithm_dict al d f hf
  have hset : ∀ k, setting (.dict r) k = (PyDict.get? (generated al) k).or (f.get? k) := by
    intro k
    simp [setting, Conf.item, h2, h3]
  have hkeys : PyDict.keys (generated al) = al.keys := by cases al <;> decide +kernel
  refine ⟨.dict r, h1, ?_, ?_, ?_, ?_⟩
  · intro k hk c0 hc0
    rw [hset, generated_setting al c0 hc0]
    have := (PyDict.get?_isSome_iff (generated al) k).2 (by rw [hkeys]; exact hk)
    cases hg : PyDict.get? (generated al) k with
    | none => simp [hg] at this
    | some s => rfl
  · intro k hk
    have : PyDict.get? (generated al) k = none := (PyDict.get?_eq_none_iff _ _).2 (by rw [hkeys]; exact hk)
    rw [hset, this]
    rfl
  · have hframe : r.get? (nm "frame") = some (.text (name al)) := by
      rw [h4 _ (by decide)]
      have : (PyDict.get? (tails al) (nm "frame")).or (PyDict.get? (heads al) (nm "frame")) = some (.text (name al)) := by
        cases al <;> decide +kernel
      rw [this]
      rfl
    simp [Conf.item, hframe]
  · intro n v hn hv
    simp only [List.map_cons, List.map_nil, List.mem_cons, List.not_mem_nil, or_false, not_or] at hn
    obtain ⟨n1, n2, n3, n4, n5, n6⟩ := hn
    have e1 : PyDict.get? (tails al) n = none := by
      rw [PyDict.get?_eq_none_iff]
      unfold tails
      split <;> simp [PyDict.keys, n4, n5, n6]
    have e2 : PyDict.get? (heads al) n = none := by
      rw [PyDict.get?_eq_none_iff]
      unfold heads
      split <;> simp [PyDict.keys, n1, n3]
    have : r.get? n = some v := by rw [h4 n n2, e1, e2]; simpa using hv
    simp [Conf.item, this]

/-- C189: a `Config` without constants that holds a `frame_config` is changed exactly as the dictionary of its entries. -/
theorem C189_config (al : Algo) (o : Config.Obj Val) (hc : o.consts = []) (f : PyDict Key String) (hf : o.data.get? (nm "frame_config") = some (.dict f)) :
    ∃ r, generateConfig al (.dict o.data) = .ok (.dict r) ∧ generateConfig al (.obj o) = .ok (.obj { o with data := r }) :=
  generateConfig_obj al o hc f hf

example : (generateConfig .trpo (.obj (Config.mk [(nm "frame_config", .dict [(.discount, "0.5"), (.other 3, "1")])]))).toOption.map
    (fun c => (setting c .discount, setting c (.other 3), setting c .actorLearningRate)) = some (some "0.99", some "1", some "0.001") := by decide +kernel

/-- C189: names that are not available raise: `NotImplementedError` for the base class, `ValueError` for all others. -/
theorem C189_unavailable (s : String) (c : Option Conf) (h : s ∉ availableAlgorithms) :
    generateAlgorithm s c = .error (if s = "TorchFramework" then .other 1 else .value) := by
  have hn : algoOf s = none := by
    unfold algoOf
    rw [List.find?_eq_none]
    intro al hal he
    exact h (List.mem_map.2 ⟨al, hal, by simpa using he⟩)
  unfold generateAlgorithm
  rw [hn]
  by_cases hs : s = "TorchFramework" <;> simp [hs]

example : "TorchFramework" ∉ availableAlgorithms ∧ "ACER" ∉ availableAlgorithms := by decide +kernel

/-- C189: every generated setting that the configuration had is overwritten by the default, for every framework. -/
theorem C189_overwrites (al : Algo) (k : Key) (hk : k ∈ al.keys) (s : String) (c0 : Conf) (h0 : generateConfig al (.dict []) = .ok c0)
    (hs : setting c0 k ≠ some s) :
    ∃ c, generateAlgorithm (name al) (some (.dict [(nm "frame_config", .dict [(k, s)])])) = .ok c ∧ setting c k ≠ some s := by
  obtain ⟨c, h1, h2, -⟩ := C189_algorithm al [(nm "frame_config", .dict [(k, s)])] [(k, s)] (Or.inl rfl)
  exact ⟨c, h1, by rw [h2 k hk c0 h0]; exact hs⟩

/-- C189: the configuration of the environment keeps all it is given and gets what is missing; the training configuration writes its four keys (the
patience always as 3) and keeps the others. -/
theorem C189_env_training (d : PyDict Name Val) :
    (∃ r, gymGenerateEnv (some (.dict d)) = .ok (.dict r) ∧ ∀ k, r.get? k = (d.get? k).or (PyDict.get? envDefaults k)) ∧
    ∀ root epi max, ∃ r, generateTraining root epi max (some (.dict d)) = .ok (.dict r) ∧
      r.get? (nm "root_dir") = some root ∧ r.get? (nm "episode_per_epoch") = some epi ∧ r.get? (nm "max_episodes") = some max ∧
      r.get? (nm "early_stopping_patience") = some (.text "3") ∧
      ∀ k, k ∉ trainingKeys.map nm → r.get? k = d.get? k := by
  refine ⟨fillDefault_dict envDefaults d (by unfold PyDict.WF; decide +kernel), ?_⟩
  intro root epi max
  obtain ⟨r, h1, h2⟩ := putAll_dict [(nm "root_dir", root), (nm "episode_per_epoch", epi), (nm "max_episodes", max),
    (nm "early_stopping_patience", .text "3")] d (by show List.Nodup [nm "root_dir", nm "episode_per_epoch", nm "max_episodes", nm "early_stopping_patience"]; decide)
  have hg : ∀ k, PyDict.get? [(nm "root_dir", root), (nm "episode_per_epoch", epi), (nm "max_episodes", max),
      (nm "early_stopping_patience", .text "3")] k = if nm "root_dir" = k then some root else if nm "episode_per_epoch" = k then some epi
      else if nm "max_episodes" = k then some max else if nm "early_stopping_patience" = k then some (.text "3") else none := by
    intro k
    simp only [PyDict.get?_cons, PyDict.get?_nil]
  refine ⟨r, h1, ?_, ?_, ?_, ?_, ?_⟩
  · rw [h2, hg, if_pos rfl]; rfl
  · rw [h2, hg, if_neg (by decide), if_pos rfl]; rfl
  · rw [h2, hg, if_neg (by decide), if_neg (by decide), if_pos rfl]; rfl
  · rw [h2, hg, if_neg (by decide), if_neg (by decide), if_neg (by decide), if_pos rfl]; rfl
  · intro k hk
    simp only [trainingKeys, List.map_cons, List.map_nil, List.mem_cons, List.not_mem_nil, or_false, not_or] at hk
    rw [h2, hg, if_neg (fun e => hk.1 e.symm), if_neg (fun e => hk.2.1 e.symm), if_neg (fun e => hk.2.2.1 e.symm),
      if_neg (fun e => hk.2.2.2 e.symm)]
    rfl

example : (generateAlgorithm "PPO" (some (.dict [(nm "frame_config", .dict [(.discount, "0.5"), (.other 3, "1")]), (nm "note", .text "x")]))).toOption.map
    (fun c => (setting c .discount, setting c (.other 3), setting c .surrogateLossClip, (c.item (nm "note")).toOption)) =
    some (some "0.99", some "1", some "0.2", some (.text "x")) := by decide +kernel

/-! ### C190: the checks for completeness -/

/-- The configuration has the key. -/
def Present (c : Conf) (k : String) : Prop :=
  match c with
  | .dict d => (d.get? (nm k)).isSome
  | .obj o => (o.data.get? (nm k)).isSome

/-- C190. The three checks accept a configuration exactly if it has the keys they ask for. -/
def C190_full : Prop :=
  ∀ (c : Conf) (ks : List String), ks ∈ [trainingKeys, algorithmKeys, envKeys] → (assertAll c ks = .ok () ↔ ∀ k ∈ ks, Present c k)

/-- C190, violated: an empty `Config` passes all checks, as it claims to have every key. -/
theorem C190_violated_config (o : Config.Obj Val) (ks : List String) (h : ks ∈ [trainingKeys, algorithmKeys, envKeys]) :
    assertAll (.obj o) ks = .ok () := by
  simp only [List.mem_cons, List.not_mem_nil, or_false] at h
  have hall : ∀ k ∈ trainingKeys ++ algorithmKeys ++ envKeys, Config.dunder (nm k) = false := by decide
  have gen : ∀ (l : List String), (∀ k ∈ l, Config.dunder (nm k) = false) → assertAll (.obj o) l = .ok () := by
    intro l
    induction l with
    | nil => intro _; rfl
    | cons k l ih =>
      intro hl
      have hk := hl k (by simp)
      have : assertHas (.obj o) k = .ok () := by simp [assertHas, Conf.has, Config.contains, hk, Config.hasAttr]
      simp only [assertAll, this]
      exact ih (fun x hx => hl x (by simp [hx]))
  rcases h with rfl | rfl | rfl <;> exact gen _ (fun k hk => hall k (by simp [hk]))

theorem C190_violated : ¬ C190_full := by
  intro h
  have := (h (.obj (Config.mk [])) algorithmKeys (by simp)).1 (C190_violated_config _ _ (by simp)) "frame" (by decide)
  simp [Present, Config.mk] at this

/-- C190, violated further: launching an empty `Config` ends in a `TypeError`, generating from it too for every framework, and generating the environment adds
nothing. -/
theorem C190_violated_more : launch (.obj (Config.mk [])) = .error .type ∧ (∀ al, generateConfig al (.obj (Config.mk [])) = .error .type) ∧
    gymGenerateEnv (some (.obj (Config.mk []))) = .ok (.obj (Config.mk [])) := by
  refine ⟨?_, ?_, rfl⟩
  · unfold launch
    rw [C190_violated_config _ _ (by simp), C190_violated_config _ _ (by simp), C190_violated_config _ _ (by simp)]
    rfl
  · intro al
    cases al <;> rfl

/-- C190, partial: for dictionaries the checks are exact, and they fail with `AssertionError`. -/
theorem C190_partial (d : PyDict Name Val) (ks : List String) :
    (assertAll (.dict d) ks = .ok () ↔ ∀ k ∈ ks, Present (.dict d) k) ∧
    ((∃ k ∈ ks, ¬ Present (.dict d) k) → assertAll (.dict d) ks = .error .assertion) := by
  refine ⟨(assertAll_dict d ks).1, ?_⟩
  rintro ⟨k, hk, hne⟩
  rcases (assertAll_dict d ks).2 with h | h
  · exact absurd ((assertAll_dict d ks).1.1 h k hk) hne
  · exact h

/-- The keys every configuration needs (config.py:119-134). -/
def neededKeys : List String :=
  ["root_dir", "episode_per_epoch", "max_episodes", "early_stopping_patience", "env", "train_env_config", "test_env_config", "frame", "frame_config"]

/-- C190, partial: `launch` refuses a dictionary that lacks any of the keys by an `AssertionError`. -/
theorem C190_launch_partial (d : PyDict Name Val) (h : ∃ k ∈ neededKeys, ¬ Present (.dict d) k) :
    launch (.dict d) = .error .assertion := by
  replace h : ∃ k ∈ trainingKeys ++ envKeys ++ algorithmKeys, ¬ Present (.dict d) k := h
  obtain ⟨k, hk, hne⟩ := h
  simp only [List.mem_append] at hk
  unfold launch
  rcases (assertAll_dict d trainingKeys).2 with h1 | h1
  · rw [h1]
    simp only
    rcases (assertAll_dict d envKeys).2 with h2 | h2
    · rw [h2]
      simp only
      rcases hk with (hk | hk) | hk
      · exact absurd ((assertAll_dict d trainingKeys).1.1 h1 k hk) hne
      · exact absurd ((assertAll_dict d envKeys).1.1 h2 k hk) hne
      · rw [(C190_partial d algorithmKeys).2 ⟨k, hk, hne⟩]
    · rw [h2]
  · rw [h1]

example : launch (.dict [(nm "root_dir", .text "x"), (nm "env", .text "openai_gym")]) = .error .assertion :=
  C190_launch_partial _ ⟨"max_episodes", by decide, by simp only [Present]; decide⟩

/-! ### C191: generated configurations can be launched -/

/-- The command `generate` raises `TypeError` for every available algorithm and environment, because of `generate_env_config` (C74). -/
theorem C191_command_fails (a e : String) (ha : a ∈ availableAlgorithms) (he : e ∈ availableEnvironments) : generateCommand a e = .error .type := by
  simp [generateCommand, ha, he, generateEnv]

/-- C191: with the function of the environment module itself, every configuration that names no other environment and whose `frame_config`, if any,
is a dictionary becomes one that `launch` accepts for every framework: the distributed launcher and the accelerator exactly for the distributed frameworks,
and the generated training settings. -/
theorem C191_launchable (al : Algo) (d : PyDict Name Val)
    (hf : (∃ f, d.get? (nm "frame_config") = some (.dict f)) ∨ d.get? (nm "frame_config") = none)
    (he : d.get? (nm "env") = none ∨ d.get? (nm "env") = some (.text "openai_gym")) (root epi max : Val) :
    ∃ c1 c2 c3 s, gymGenerateEnv (some (.dict d)) = .ok c1 ∧ generateAlgorithm (name al) (some c1) = .ok c2 ∧
      generateTraining root epi max (some c2) = .ok c3 ∧ launch c3 = .ok s ∧
      (s.distributedLauncher = true ↔ al ∈ distributed) ∧ s.ddp = s.distributedLauncher ∧ s.limitTrainBatches = epi ∧ s.maxSteps = max ∧
      s.patience = .text "3" := by
  obtain ⟨⟨r1, a1, a2⟩, -⟩ := C189_env_training d
  have hf1 : ∃ f, r1.get? (nm "frame_config") = some (.dict f) ∨ r1.get? (nm "frame_config") = none ∧ f = [] := by
    rw [a2]
    have : PyDict.get? envDefaults (nm "frame_config") = none := by decide +kernel
    rw [this]
    rcases hf with ⟨f, hf⟩ | hf
    · exact ⟨f, Or.inl (by rw [hf]; rfl)⟩
    · exact ⟨[], Or.inr ⟨by rw [hf]; rfl, rfl⟩⟩
  obtain ⟨f, hf1⟩ := hf1
  obtain ⟨r2, b1, ⟨g, b2, -⟩, b4⟩ := generateAlgorithm_dict al r1 f hf1
  obtain ⟨r3, c1, c2, c3, c4, c5, c6⟩ := (C189_env_training r2).2 root epi max
  have hth : ∀ n ∈ envKeys, ((PyDict.get? (tails al) (nm n)).or (PyDict.get? (heads al) (nm n))) = none := by cases al <;> decide +kernel
  have hframe : r3.get? (nm "frame") = some (.text (name al)) := by
    rw [c6 _ (by decide), b4 _ (by decide)]
    have : (PyDict.get? (tails al) (nm "frame")).or (PyDict.get? (heads al) (nm "frame")) = some (.text (name al)) := by
      cases al <;> decide +kernel
    rw [this]
    rfl
  have hfc : r3.get? (nm "frame_config") = some (.dict g) := by rw [c6 _ (by decide), b2]
  have hr3 : ∀ n ∈ envKeys, r3.get? (nm n) = r1.get? (nm n) := by
    intro n hn
    have hnot : nm n ∉ trainingKeys.map nm ∧ nm n ≠ nm "frame_config" := by revert n; decide
    rw [c6 _ hnot.1, b4 _ hnot.2, hth n hn]
    rfl
  have hsome : ∀ n ∈ envKeys, (r3.get? (nm n)).isSome := by
    intro n hn
    rw [hr3 n hn, a2]
    have : (PyDict.get? envDefaults (nm n)).isSome := by revert n; decide +kernel
    cases d.get? (nm n) <;> simp [this]
  have henv : r3.get? (nm "env") = some (.text "openai_gym") := by
    rw [hr3 _ (by decide), a2]
    have : PyDict.get? envDefaults (nm "env") = some (.text "openai_gym") := by decide +kernel
    rw [this]
    rcases he with he | he <;> rw [he] <;> rfl
  have htr : assertAll (.dict r3) trainingKeys = .ok () := by
    rw [(assertAll_dict r3 trainingKeys).1]
    intro k hk
    simp only [trainingKeys, List.mem_cons, List.not_mem_nil, or_false] at hk
    rcases hk with rfl | rfl | rfl | rfl
    · rw [c2]; rfl
    · rw [c3]; rfl
    · rw [c4]; rfl
    · rw [c5]; rfl
  have hen : assertAll (.dict r3) envKeys = .ok () := (assertAll_dict r3 envKeys).1.2 hsome
  have hal : assertAll (.dict r3) algorithmKeys = .ok () := by
    rw [(assertAll_dict r3 algorithmKeys).1]
    intro k hk
    simp only [algorithmKeys, List.mem_cons, List.not_mem_nil, or_false] at hk
    rcases hk with rfl | rfl
    · rw [hframe]; rfl
    · rw [hfc]; rfl
  have hdist : isDistributed (.dict r3) = .ok (decide (al ∈ distributed)) := by
    unfold isDistributed frameOf
    simp only [hal, Conf.item, hframe, algoOf_name]
  refine ⟨.dict r1, .dict r2, .dict r3, ⟨decide (al ∈ distributed), decide (al ∈ distributed), epi, max, .text "3"⟩, a1, b1, c1, ?_, by simp, rfl, rfl, rfl, rfl⟩
  unfold launch
  simp only [htr, hen, hal, Conf.item, henv]
  rw [if_pos (by decide)]
  unfold gymLaunch
  simp only [Conf.item, c5, hdist, c3, c4, if_true]

/-- C191: whatever is launched is launched with the distributed launcher and accelerator exactly if its frame names a distributed algorithm. -/
theorem C191_kind (c : Conf) (s : Started) (h : launch c = .ok s) :
    (s.distributedLauncher = true ↔ ∃ t al, c.item (nm "frame") = .ok (.text t) ∧ algoOf t = some al ∧ al ∈ distributed) ∧ s.ddp = s.distributedLauncher := by
  have hd : ∀ b, isDistributed c = .ok b → (b = true ↔ ∃ t al, c.item (nm "frame") = .ok (.text t) ∧ algoOf t = some al ∧ al ∈ distributed) := by
    intro b hb
    unfold isDistributed frameOf at hb
    cases h1 : assertAll c algorithmKeys with
    | error e => simp [h1] at hb
    | ok u =>
      cases h2 : c.item (nm "frame") with
      | error e => simp [h1, h2] at hb
      | ok v =>
        cases v with
        | text t =>
          cases h3 : algoOf t with
          | some al => simp [h1, h2, h3] at hb; subst hb; simp [h3]
          | none =>
            by_cases h4 : t = "TorchFramework"
            · simp only [h1, h2, h3, if_pos h4] at hb
              cases hb
              simp [h3]
            · simp [h1, h2, h3, h4] at hb
        | _ => simp [h1, h2] at hb
  have hg : gymLaunch c = .ok s := by
    unfold launch at h
    cases h1 : assertAll c trainingKeys with
    | error e => simp [h1] at h
    | ok u =>
      cases h2 : assertAll c envKeys with
      | error e => simp [h1, h2] at h
      | ok u =>
        cases h3 : assertAll c algorithmKeys with
        | error e => simp [h1, h2, h3] at h
        | ok u =>
          cases h4 : c.item (nm "env") with
          | error e => simp [h1, h2, h3, h4] at h
          | ok v =>
            cases v with
            | text t =>
              by_cases h5 : t ∈ availableEnvironments
              · simpa [h1, h2, h3, h4, h5] using h
              · simp [h1, h2, h3, h4, h5] at h
            | _ => simp [h1, h2, h3, h4] at h
  unfold gymLaunch at hg
  cases h1 : c.item (nm "early_stopping_patience") with
  | error e => simp [h1] at hg
  | ok p =>
    cases h2 : isDistributed c with
    | error e => simp [h1, h2] at hg
    | ok b =>
      cases h3 : c.item (nm "episode_per_epoch") with
      | error e => simp [h1, h2, h3] at hg
      | ok l =>
        cases h4 : c.item (nm "max_episodes") with
        | error e => simp [h1, h2, h3, h4] at hg
        | ok m =>
          simp only [h1, h2, h3, h4, if_true] at hg
          cases hg
          exact ⟨hd b h2, rfl⟩

example : ∃ c1 c2 c3 s, gymGenerateEnv (some (.dict [(nm "frame_config", .dict [(.discount, "0.5")])])) = .ok c1 ∧
    generateAlgorithm "IMPALA" (some c1) = .ok c2 ∧ generateTraining (.text "trial") (.text "10") (.text "10000") (some c2) = .ok c3 ∧ launch c3 = .ok s ∧
    s.distributedLauncher = true := by
  obtain ⟨c1, c2, c3, s, h1, h2, h3, h4, h5, -⟩ := C191_launchable .impala [(nm "frame_config", .dict [(.discount, "0.5")])] (Or.inl ⟨_, rfl⟩) (Or.inl rfl)
    (.text "trial") (.text "10") (.text "10000")
  exact ⟨c1, c2, c3, s, h1, h2, h3, h4, h5.2 (by decide)⟩

end Machin.Launch
