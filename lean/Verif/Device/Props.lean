import Verif.Device.Lemmas

/-! # Properties C184-C186: devices of modules and of calls -/

namespace Machin.Device

open Spec

/-- C184. Every module that `set_input_module` and `set_output_module` accept has an input and an output device ("Input module must be
another NeuralNetworkModule or locate on one single device", nets/base.py:28-34). -/
def C184_full : Prop :=
  ∀ (dev : Nat → Nat) (own : List Nat) (i o : Mod), checkPart dev true i = .ok () → checkPart dev false o = .ok () →
    (∃ d, inputDevice dev (.net own (some i) (some o)) = .ok d) ∧ ∃ d, outputDevice dev (.net own (some i) (some o)) = .ok d

/-- C184 is violated: of a container only the first (last) leaf is checked, but all its parameters are asked. -/
theorem C184_violated : ¬ C184_full := by
  intro h
  have := (h (fun p => p) [] (.seq [.plain [0], .plain [1]]) (.plain [0]) (by decide +kernel) (by decide +kernel)).1
  obtain ⟨d, hd⟩ := this
  have e : inputDevice (fun p => p) (.net [] (some (.seq [.plain [0], .plain [1]])) (some (.plain [0]))) = .error .runtime := by
    decide +kernel
  rw [e] at hd
  exact absurd hd (by simp)

/-- C184, further cases: a module without parameters and a network whose input module is not set are accepted and have no device. -/
theorem C184_violated_more (dev : Nat → Nat) (own : List Nat) (out : Option Mod) :
    checkPart dev true (.plain []) = .ok () ∧ inputDevice dev (.net own (some (.plain [])) out) = .error .runtime ∧
    checkPart dev true (.net own none out) = .ok () ∧ inputDevice dev (.net own (some (.net own none out)) out) = .error .runtime := by
  simp [checkPart, inputDevice, single, devSet]

/-- C184, partial: the input device is `d` exactly if all parameters of the module at the end of the chain of input modules are on `d` and
there is one; the same for the output device and the chain of output modules. -/
theorem C184_device_partial (dev : Nat → Nat) (m : Mod) (d : Nat) :
    (inputDevice dev m = .ok d ↔ ∃ x, Part true m x ∧ On dev x.params d) ∧
    (outputDevice dev m = .ok d ↔ ∃ x, Part false m x ∧ On dev x.params d) :=
  ⟨inputDevice_ok m, outputDevice_ok m⟩

/-- C184, partial: an accepted module that is neither a container nor a network and has parameters has a device; an accepted network has
the devices of that network. -/
theorem C184_partial (dev : Nat → Nat) (own : List Nat) (i o : Mod) (hi : checkPart dev true i = .ok ())
    (ho : checkPart dev false o = .ok ()) :
    (∀ ps, i = .plain ps → ps ≠ [] → ∃ d, inputDevice dev (.net own (some i) (some o)) = .ok d ∧ ∀ p ∈ ps, dev p = d) ∧
    (∀ ps, o = .plain ps → ps ≠ [] → ∃ d, outputDevice dev (.net own (some i) (some o)) = .ok d ∧ ∀ p ∈ ps, dev p = d) ∧
    (∀ own' i' o', i = .net own' i' o' → inputDevice dev (.net own (some i) (some o)) = inputDevice dev i) ∧
    (∀ own' i' o', o = .net own' i' o' → outputDevice dev (.net own (some i) (some o)) = outputDevice dev o) := by
  refine ⟨?_, ?_, ?_, ?_⟩
  · rintro ps rfl hne
    have h : ¬ (devSet dev ps).length > 1 := by
      intro hc
      simp [checkPart, hc] at hi
    obtain ⟨d, hd⟩ := devSet_le_one h hne
    exact ⟨d, (inputDevice_ok _).2 ⟨_, .inPlain, by simpa [Mod.params] using hd⟩, hd.2⟩
  · rintro ps rfl hne
    have h : ¬ (devSet dev ps).length > 1 := by
      intro hc
      simp [checkPart, hc] at ho
    obtain ⟨d, hd⟩ := devSet_le_one h hne
    exact ⟨d, (outputDevice_ok _).2 ⟨_, .outPlain, by simpa [Mod.params] using hd⟩, hd.2⟩
  · rintro own' i' o' rfl
    rw [inputDevice]
  · rintro own' i' o' rfl
    rw [outputDevice]

/-- C184, partial: what is accepted. A network always; a plain module if its parameters are on one device; a container if the parameters of the module at its
first (last) place, looked for through containers in it, are. A container without such a place raises `IndexError`. -/
theorem C184_accepted_partial (dev : Nat → Nat) (first : Bool) (m : Mod) :
    (checkPart dev first m = .ok () ↔ (∃ own i o, m = .net own i o) ∨ ∃ x, Leaf first m x ∧ Together dev x.params) ∧
    (checkPart dev first m = .error .index ↔ ¬ ∃ x, Leaf first m x) := by
  have small : ∀ ps, ¬ (devSet dev ps).length > 1 ↔ Together dev ps := by
    intro ps
    constructor
    · intro h p hp q hq
      obtain ⟨d, -, hd⟩ := devSet_le_one h (List.ne_nil_of_mem hp)
      rw [hd p hp, hd q hq]
    · intro h
      cases ps with
      | nil => simp [devSet]
      | cons p ps =>
        have : devSet dev (p :: ps) = [dev p] := devSet_single.2 ⟨by simp, fun q hq => h q hq p (by simp)⟩
        simp [this]
  have leaf : ∀ m, (∃ x, (if first then findFirst m else findLast m) = .ok x ∧ ∀ y, Leaf first m y ↔ y = x) ∨
      ((if first then findFirst m else findLast m) = .error .index ∧ ∀ y, ¬ Leaf first m y) := by
    intro m
    cases first with
    | true =>
      simp only [if_true]
      fun_induction findFirst m with
      | case1 => exact Or.inr ⟨rfl, fun y h => by cases h with | seq h _ => simp at h⟩
      | case2 c cs ih =>
        have e : ∀ y, Leaf true (.seq (c :: cs)) y ↔ Leaf true c y :=
          fun y => ⟨fun h => by cases h with | seq h h' => simp at h; subst h; exact h', fun h => .seq (by simp) h⟩
        simpa only [e] using ih
      | case3 ps => exact Or.inl ⟨_, rfl, fun y => ⟨fun h => by cases h; rfl, by rintro rfl; exact .plain⟩⟩
      | case4 own i o => exact Or.inl ⟨_, rfl, fun y => ⟨fun h => by cases h; rfl, by rintro rfl; exact .net⟩⟩
    | false =>
      simp only [Bool.false_eq_true, if_false]
      refine Mod.rec (motive_1 := fun m => (∃ x, findLast m = .ok x ∧ ∀ y, Leaf false m y ↔ y = x) ∨ (findLast m = .error .index ∧ ∀ y, ¬ Leaf false m y))
        (motive_2 := fun cs => (∃ x, findLastOf cs = .ok x ∧ ∀ y, Leaf false (.seq cs) y ↔ y = x) ∨
          (findLastOf cs = .error .index ∧ ∀ y, ¬ Leaf false (.seq cs) y)) (motive_3 := fun _ => True) ?_ ?_ ?_ ?_ ?_ ?_ ?_ m
      · intro ps
        exact Or.inl ⟨.plain ps, by simp [findLast], fun y => ⟨fun h => by cases h; rfl, by rintro rfl; exact .plain⟩⟩
      · intro cs ih
        rw [findLast]
        exact ih
      · intro own i o _ _
        exact Or.inl ⟨.net own i o, by simp [findLast], fun y => ⟨fun h => by cases h; rfl, by rintro rfl; exact .net⟩⟩
      · exact Or.inr ⟨by simp [findLastOf], fun y h => by cases h with | seq h _ => simp at h⟩
      · intro c cs ih1 ih2
        cases cs with
        | nil =>
          rw [findLastOf]
          have e : ∀ y, Leaf false (.seq [c]) y ↔ Leaf false c y :=
            fun y => ⟨fun h => by cases h with | seq h h' => simp at h; subst h; exact h', fun h => .seq (by simp) h⟩
          simpa only [e] using ih1
        | cons d cs =>
          rw [findLastOf]
          have e : ∀ y, Leaf false (.seq (c :: d :: cs)) y ↔ Leaf false (.seq (d :: cs)) y :=
            fun y => ⟨fun h => by cases h with | seq h h' => exact .seq (by simpa using h) h',
              fun h => by cases h with | seq h h' => exact .seq (by simpa using h) h'⟩
          simpa only [e] using ih2
      · trivial
      · intros; trivial
  cases m with
  | net own i o =>
    refine ⟨⟨fun _ => Or.inl ⟨own, i, o, rfl⟩, fun _ => rfl⟩, ⟨fun h => by simp [checkPart] at h, fun h => absurd ⟨_, .net⟩ h⟩⟩
  | plain ps =>
    have e : ∀ y, Leaf first (.plain ps) y ↔ y = .plain ps := fun y => ⟨fun h => by cases h; rfl, by rintro rfl; exact .plain⟩
    have := small ps
    by_cases h : (devSet dev ps).length > 1
    · have ht : ¬ Together dev ps := fun ht => (this.2 ht) h
      simp [checkPart, h, e, Mod.params, ht]
    · simp [checkPart, h, e, Mod.params, this.1 h]
  | seq cs =>
    rcases leaf (.seq cs) with ⟨x, hx, hl⟩ | ⟨hx, hl⟩
    · have := small x.params
      by_cases h : (devSet dev x.params).length > 1
      · have ht : ¬ Together dev x.params := fun ht => (this.2 ht) h
        simp [checkPart, hx, h, hl, ht]
      · simp [checkPart, hx, h, hl, this.1 h]
    · simp [checkPart, hx, hl]

example : checkPart (fun p => p / 2) true (.plain [2, 3]) = .ok () ∧ checkPart (fun p => p / 2) false (.seq [.plain [0], .plain [4]]) = .ok () ∧
    checkPart (fun p => p / 2) false (.plain [3, 4]) = .error .runtime ∧
    inputDevice (fun p => p / 2) (.net [] (some (.net [9] (some (.plain [2, 3])) none)) (some (.plain [4]))) = .ok 1 ∧
    outputDevice (fun p => p / 2) (.net [] (some (.net [9] (some (.plain [2, 3])) none)) (some (.plain [4]))) = .ok 2 := by
  decide +kernel

/-- C185. Moving a network to a device makes that device its input and its output device, whatever it was before: if the module at the
end of the chain of input (output) modules has a parameter, in particular if the network had a device. -/
theorem C185_moved (dev : Nat → Nat) (m : Mod) (d : Nat) :
    ((∃ x, Part true m x ∧ x.params ≠ []) → inputDevice (move dev m d) m = .ok d) ∧
    ((∃ x, Part false m x ∧ x.params ≠ []) → outputDevice (move dev m d) m = .ok d) ∧
    (∀ e, inputDevice dev m = .ok e → inputDevice (move dev m d) m = .ok d) ∧
    (∀ e, outputDevice dev m = .ok e → outputDevice (move dev m d) m = .ok d) := by
  refine ⟨?_, ?_, ?_, ?_⟩
  · rintro ⟨x, h, hne⟩
    exact (inputDevice_ok m).2 ⟨x, h, Part.on_move h hne dev d⟩
  · rintro ⟨x, h, hne⟩
    exact (outputDevice_ok m).2 ⟨x, h, Part.on_move h hne dev d⟩
  · intro e he
    obtain ⟨x, h, hne, -⟩ := (inputDevice_ok m).1 he
    exact (inputDevice_ok m).2 ⟨x, h, Part.on_move h hne dev d⟩
  · intro e he
    obtain ⟨x, h, hne, -⟩ := (outputDevice_ok m).1 he
    exact (outputDevice_ok m).2 ⟨x, h, Part.on_move h hne dev d⟩

/-- C185, the other networks: moving one network
leaves the devices of a network that shares no parameter with it. -/
theorem C185_other (dev : Nat → Nat) (m n : Mod) (d : Nat) (h : ∀ p ∈ n.params, p ∉ m.params) :
    inputDevice (move dev m d) n = inputDevice dev n ∧ outputDevice (move dev m d) n = outputDevice dev n := by
  have hs : ∀ (ps : List Nat), (∀ p ∈ ps, p ∈ n.params) → single (move dev m d) ps = single dev ps := by
    intro ps hps
    have : ps.map (move dev m d) = ps.map dev := List.map_congr_left (fun p hp => by simp [move, h p (hps p hp)])
    simp [single, devSet, this]
  have hin : ∀ (k : Mod), (∀ p ∈ k.params, p ∈ n.params) → inputDevice (move dev m d) k = inputDevice dev k := by
    intro k hk
    fun_induction inputDevice dev k with
    | case1 => simp [inputDevice]
    | case2 own out own' inp' out' ih =>
      rw [inputDevice]
      apply ih
      intro p hp
      apply hk
      rw [Mod.params, paramsOpt]
      simp [hp]
    | case3 own out ps =>
      rw [inputDevice]
      apply hs
      intro p hp
      apply hk
      simp [Mod.params, paramsOpt, hp]
    | case4 own out cs =>
      rw [inputDevice]
      apply hs
      intro p hp
      apply hk
      simp [Mod.params, paramsOpt, hp]
    | case5 => simp [inputDevice]
    | case6 => simp [inputDevice]
  refine ⟨hin n (fun _ hp => hp), ?_⟩
  have hout : ∀ (k : Mod), (∀ p ∈ k.params, p ∈ n.params) → outputDevice (move dev m d) k = outputDevice dev k := by
    intro k hk
    fun_induction outputDevice dev k with
    | case1 => simp [outputDevice]
    | case2 own inp own' inp' out' ih =>
      rw [outputDevice]
      apply ih
      intro p hp
      apply hk
      simp only [Mod.params, paramsOpt, List.mem_append]
      right
      simpa only [Mod.params, List.mem_append] using hp
    | case3 own inp ps =>
      rw [outputDevice]
      apply hs
      intro p hp
      apply hk
      simp [Mod.params, paramsOpt, hp]
    | case4 own inp cs =>
      rw [outputDevice]
      apply hs
      intro p hp
      apply hk
      simp [Mod.params, paramsOpt, hp]
    | case5 own k' =>
      rw [outputDevice]
      exact hin _ hk
    | case6 => simp [outputDevice]
    | case7 => simp [outputDevice]
  exact hout n (fun _ hp => hp)

example : Part true (.net [9] (some (.net [] (some (.seq [.plain [0], .plain [1]])) none)) none) (.seq [.plain [0], .plain [1]]) ∧
    inputDevice (fun p => p) (.net [9] (some (.net [] (some (.seq [.plain [0], .plain [1]])) none)) none) = .error .runtime ∧
    inputDevice (move (fun p => p) (.net [9] (some (.net [] (some (.seq [.plain [0], .plain [1]])) none)) none) 5)
      (.net [9] (some (.net [] (some (.seq [.plain [0], .plain [1]])) none)) none) = .ok 5 :=
  ⟨.inNet .inSeq, by decide +kernel, by decide +kernel⟩

/-! ### Arguments of a call -/

/-- The module whose parameters meet the arguments of a call: the end of the chain of input modules for a network, else the model. -/
def Meets (m x : Mod) : Prop := (∃ own i o, m = .net own i o ∧ Part true m x) ∨ ((∀ own i o, m ≠ .net own i o) ∧ x = m)

/-- C186. "safe_call will automatically move tensors in named_args to the input device of the model" (utils.py:54-55): whatever happened
to a model before, a call that succeeds gives it every tensor on the device of the parameters it meets. -/
def C186_full : Prop :=
  ∀ (m x : Mod) (dev : Nat → Nat) (ops : List Op) (args ds : List Nat) (s : State), Meets m x →
    safeCall m (run m ⟨dev, none⟩ ops) args = (s, .ok ds) → ds.length = args.length ∧ ∀ e ∈ ds, ∀ p ∈ x.params, s.dev p = e

/-- C186 is violated: the first call writes the device it found into the model, so after the model has been moved the arguments go to the
old device. -/
theorem C186_violated : ¬ C186_full := by
  intro h
  have := (h (.plain [0]) (.plain [0]) (fun _ => 0) [.call [3], .move 1] [3] [0] ⟨move (fun _ => 0) (.plain [0]) 1, some (0, 0)⟩
    (Or.inr ⟨by simp, rfl⟩) rfl).2 0 (by simp) 0 (by simp [Mod.params])
  simp [move, Mod.params] at this

/-- C186, further: a model without parameters that has not been wrapped cannot be called. -/
theorem C186_violated_empty (dev : Nat → Nat) (ops : List Op) (args : List Nat) :
    (safeCall (.plain []) (run (.plain []) ⟨dev, none⟩ ops) args).2 = .error .index := by
  have : ∀ (s : State), s.static = none → (run (.plain []) s ops).static = none := by
    induction ops with
    | nil => intro s hs; exact hs
    | cons op ops ih =>
      intro s hs
      rw [run, List.foldl_cons]
      apply ih
      cases op with
      | move d => exact hs
      | call a => simp [step, safeCall, ioDevice, hs, devSet, Mod.params]
  have h := this ⟨dev, none⟩ rfl
  simp [safeCall, ioDevice, h, devSet, Mod.params]

theorem net_call {own : List Nat} {i o : Option Mod} {s s' : State} {args ds : List Nat}
    (h : safeCall (.net own i o) s args = (s', .ok ds)) : s' = s ∧ ∃ d, inputDevice s.dev (.net own i o) = .ok d ∧ ds = args.map fun _ => d := by
  unfold safeCall ioDevice at h
  cases h1 : inputDevice s.dev (.net own i o) with
  | error e => simp [h1] at h
  | ok d =>
    cases h2 : outputDevice s.dev (.net own i o) with
    | error e => simp [h1, h2] at h
    | ok d' =>
      simp only [h1, h2, Prod.mk.injEq, Except.ok.injEq] at h
      exact ⟨h.1.symm, d, rfl, h.2.symm⟩

/-- C186, partial: it holds for every `NeuralNetworkModule`, in particular for dynamically wrapped models, after any history. -/
theorem C186_net_partial (own : List Nat) (i o : Option Mod) (x : Mod) (dev : Nat → Nat) (ops : List Op) (args ds : List Nat) (s : State)
    (hx : Part true (.net own i o) x) (h : safeCall (.net own i o) (run (.net own i o) ⟨dev, none⟩ ops) args = (s, .ok ds)) :
    ds.length = args.length ∧ ∀ e ∈ ds, ∀ p ∈ x.params, s.dev p = e := by
  obtain ⟨rfl, d, hd, rfl⟩ := net_call h
  refine ⟨by simp, ?_⟩
  intro e he p hp
  obtain ⟨y, hy, hon⟩ := (inputDevice_ok _).1 hd
  have : x = y := Part.unique hx y hy
  subst this
  have : e = d := by
    simp only [List.mem_map] at he
    obtain ⟨_, _, rfl⟩ := he
    rfl
  rw [this]
  exact hon.2 p hp

/-- C186, partial: a dynamically wrapped model all of whose parameters were moved somewhere can always be called. -/
theorem C186_dynamic_partial (dev dev' : Nat → Nat) (m w : Mod) (hw : dynamicWrap dev m = .ok w) (hne : m.params ≠ []) (d : Nat)
    (hon : ∀ p ∈ m.params, dev' p = d) (st : Option (Nat × Nat)) (args : List Nat) :
    safeCall w ⟨dev', st⟩ args = (⟨dev', st⟩, .ok (args.map fun _ => d)) := by
  have hwm : w = .net m.params (some m) (some m) ∧ ∀ own i o, m ≠ .net own i o := by
    unfold dynamicWrap at hw
    split at hw
    · exact absurd hw (by simp)
    · rename_i hnet
      split at hw
      · exact absurd hw (by simp)
      · split at hw
        · exact absurd hw (by simp)
        · simp only [Except.ok.injEq] at hw
          exact ⟨hw.symm, fun own i o he => hnet own i o he⟩
  obtain ⟨rfl, hnet⟩ := hwm
  have h1 : inputDevice dev' (.net m.params (some m) (some m)) = .ok d := by
    rw [inputDevice_ok]
    refine ⟨m, ?_, hne, hon⟩
    cases m with
    | plain ps => exact .inPlain
    | seq cs => exact .inSeq
    | net own i o => exact absurd rfl (hnet own i o)
  have h2 : outputDevice dev' (.net m.params (some m) (some m)) = .ok d := by
    rw [outputDevice_ok]
    refine ⟨m, ?_, hne, hon⟩
    cases m with
    | plain ps => exact .outPlain
    | seq cs => exact .outSeq
    | net own i o => exact absurd rfl (hnet own i o)
  simp [safeCall, ioDevice, h1, h2]

theorem run_moves (m : Mod) (s : State) (ds : List Nat) : (run m s (ds.map Op.move)).static = s.static := by
  induction ds generalizing s with
  | nil => rfl
  | cons d ds ih => simp only [List.map_cons, run, List.foldl_cons] at ih ⊢; rw [ih]; rfl

/-- C186, partial: a model that is not a network gets its arguments on the device of its parameters as long as it is only moved before the
first call; calls on parameters of several devices raise. -/
theorem C186_partial (m : Mod) (hm : ∀ own i o, m ≠ .net own i o) (dev : Nat → Nat) (moves : List Nat) (calls : List (List Nat))
    (args ds : List Nat) (s : State)
    (h : safeCall m (run m ⟨dev, none⟩ (moves.map Op.move ++ calls.map Op.call)) args = (s, .ok ds)) :
    ds.length = args.length ∧ ∀ e ∈ ds, ∀ p ∈ m.params, s.dev p = e := by
  have hio : ∀ (s s' : State) (r : Except Err Nat), ioDevice m s = (s', r) →
      (∀ i o, s.static = some (i, o) → ∀ p ∈ m.params, s.dev p = i) →
      s'.dev = s.dev ∧ (∀ i o, s'.static = some (i, o) → ∀ p ∈ m.params, s'.dev p = i) ∧ ∀ d, r = .ok d → ∀ p ∈ m.params, s'.dev p = d := by
    intro s s' r hr hinv
    unfold ioDevice at hr
    split at hr
    · exact absurd rfl (hm _ _ _)
    · split at hr
      · rename_i i o hs
        simp only [Prod.mk.injEq] at hr
        obtain ⟨rfl, rfl⟩ := hr
        refine ⟨rfl, hinv, ?_⟩
        intro d hd
        simp only [Except.ok.injEq] at hd
        subst hd
        exact hinv i o hs
      · split at hr
        · simp only [Prod.mk.injEq] at hr
          obtain ⟨rfl, rfl⟩ := hr
          exact ⟨rfl, hinv, fun d hd => absurd hd (by simp)⟩
        · rename_i d hd
          simp only [Prod.mk.injEq] at hr
          obtain ⟨rfl, rfl⟩ := hr
          have hon := (devSet_single.1 hd).2
          refine ⟨rfl, ?_, ?_⟩
          · intro i o hio
            simp only [Option.some.injEq, Prod.mk.injEq] at hio
            rw [← hio.1]
            exact hon
          · intro e he
            simp only [Except.ok.injEq] at he
            subst he
            exact hon
        · simp only [Prod.mk.injEq] at hr
          obtain ⟨rfl, rfl⟩ := hr
          exact ⟨rfl, hinv, fun d hd => absurd hd (by simp)⟩
  have hcall : ∀ (s s' : State) (r : Except Err (List Nat)) (args : List Nat), safeCall m s args = (s', r) →
      (∀ i o, s.static = some (i, o) → ∀ p ∈ m.params, s.dev p = i) →
      (∀ i o, s'.static = some (i, o) → ∀ p ∈ m.params, s'.dev p = i) ∧
        ∀ ds, r = .ok ds → ds.length = args.length ∧ ∀ e ∈ ds, ∀ p ∈ m.params, s'.dev p = e := by
    intro s s' r args hr hinv
    unfold safeCall at hr
    cases hi : ioDevice m s with
    | mk s1 r1 =>
      rw [hi] at hr
      have := hio s s1 r1 hi hinv
      cases r1 with
      | error e =>
        simp only [Prod.mk.injEq] at hr
        obtain ⟨rfl, rfl⟩ := hr
        exact ⟨this.2.1, fun ds hds => absurd hds (by simp)⟩
      | ok d =>
        simp only [Prod.mk.injEq] at hr
        obtain ⟨rfl, rfl⟩ := hr
        refine ⟨this.2.1, ?_⟩
        intro ds hds
        simp only [Except.ok.injEq] at hds
        subst hds
        refine ⟨by simp, ?_⟩
        intro e he
        simp only [List.mem_map] at he
        obtain ⟨_, _, rfl⟩ := he
        exact this.2.2 d rfl
  have hruns : ∀ (calls : List (List Nat)) (s : State), (∀ i o, s.static = some (i, o) → ∀ p ∈ m.params, s.dev p = i) →
      ∀ i o, (run m s (calls.map Op.call)).static = some (i, o) → ∀ p ∈ m.params, (run m s (calls.map Op.call)).dev p = i := by
    intro calls
    induction calls with
    | nil => intro s hs; exact hs
    | cons a calls ih =>
      intro s hs
      rw [List.map_cons, run, List.foldl_cons]
      apply ih
      exact (hcall s _ _ a rfl hs).1
  have h0 : ∀ i o, (run m ⟨dev, none⟩ (moves.map Op.move)).static = some (i, o) → ∀ p ∈ m.params,
      (run m ⟨dev, none⟩ (moves.map Op.move)).dev p = i := by
    intro i o hs
    rw [run_moves] at hs
    exact absurd hs (by simp)
  have := hruns calls _ h0
  rw [run, List.foldl_append] at h
  exact (hcall _ _ _ _ h this).2 ds rfl

example : (safeCall (.plain [0, 1]) (run (.plain [0, 1]) ⟨fun p => p, none⟩ ([2].map Op.move ++ [[7], [8]].map Op.call)) [5, 6]).2 = .ok [2, 2] ∧
    (safeCall (.plain [0, 1]) (run (.plain [0, 1]) ⟨fun p => p, none⟩ []) [5, 6]).2 = .error .runtime ∧
    (safeCall (.net [0] (some (.plain [0])) (some (.plain [0])))
      (run (.net [0] (some (.plain [0])) (some (.plain [0]))) ⟨fun p => p, none⟩ [.call [3], .move 1]) [3]).2 = .ok [1] ∧
    Part true (.net [0] (some (.plain [0])) (some (.plain [0]))) (.plain [0]) :=
  ⟨by decide +kernel, by decide +kernel, by decide +kernel, .inPlain⟩

end Machin.Device
