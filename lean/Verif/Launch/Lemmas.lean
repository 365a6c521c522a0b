import Verif.Launch.Model

/-! # Lemmas about generated configurations -/

namespace Machin.Launch

open Config (Name)
open Frames

theorem mergeDicts_get (new : PyDict Key String) : ∀ (old : PyDict Key String), new.WF → ∀ k,
    (mergeDicts old new).get? k = (new.get? k).or (old.get? k) := by
  induction new with
  | nil => intro old _ k; simp [mergeDicts]
  | cons x new ih =>
    intro old hw k
    obtain ⟨a, v⟩ := x
    have hw' : PyDict.WF new := by
      unfold PyDict.WF PyDict.keys at hw ⊢
      exact (List.nodup_cons.1 hw).2
    have ha : a ∉ PyDict.keys new := by
      unfold PyDict.WF PyDict.keys at hw
      exact (List.nodup_cons.1 hw).1
    have e : mergeDicts old ((a, v) :: new) = mergeDicts (old.set a v) new := rfl
    rw [e, ih _ hw', PyDict.get?_cons, PyDict.get?_set]
    by_cases h : k = a
    · subst h
      have : PyDict.get? new k = none := (PyDict.get?_eq_none_iff new k).2 ha
      simp [this]
    · have h' : ¬ a = k := fun e => h e.symm
      simp [h, h']

/-- The framework whose `default_values` are used. -/
def root (al : Algo) : Algo := (parent al).getD al

/-- The settings generated from given ones. -/
def settingsFrom (al : Algo) (f : PyDict Key String) : PyDict Key String := mergeDicts (mergeDicts f (defaults (root al))) (extras al)

/-- The settings generated from nothing. -/
def generated (al : Algo) : PyDict Key String := mergeDicts (defaults (root al)) (extras al)

theorem defaults_wf (al : Algo) : PyDict.WF (defaults al) := by cases al <;> (unfold PyDict.WF; decide +kernel)

theorem extras_wf (al : Algo) : PyDict.WF (extras al) := by cases al <;> (unfold PyDict.WF; decide +kernel)

theorem settingsFrom_get (al : Algo) (f : PyDict Key String) (k : Key) :
    (settingsFrom al f).get? k = ((generated al).get? k).or (f.get? k) := by
  unfold settingsFrom generated
  rw [mergeDicts_get _ _ (extras_wf al), mergeDicts_get _ _ (defaults_wf _), mergeDicts_get _ _ (extras_wf al)]
  cases PyDict.get? (extras al) k <;> simp

/-- Assignments to a dictionary. -/
theorem putAll_dict (ds : List (Name × Val)) : ∀ (d : PyDict Name Val), PyDict.WF ds → ∃ r, putAll ds (.dict d) = .ok (.dict r) ∧
    ∀ k, r.get? k = (PyDict.get? ds k).or (d.get? k) := by
  induction ds with
  | nil => intro d _; exact ⟨d, rfl, fun k => by simp⟩
  | cons x ds ih =>
    intro d hw
    obtain ⟨a, v⟩ := x
    have hw' : PyDict.WF ds := by
      unfold PyDict.WF PyDict.keys at hw ⊢
      exact (List.nodup_cons.1 hw).2
    have ha : a ∉ PyDict.keys ds := by
      unfold PyDict.WF PyDict.keys at hw
      exact (List.nodup_cons.1 hw).1
    obtain ⟨r, h1, h2⟩ := ih (d.set a v) hw'
    refine ⟨r, by simp [putAll, Conf.put, h1], ?_⟩
    intro k
    rw [h2, PyDict.get?_cons, PyDict.get?_set]
    by_cases h : k = a
    · subst h
      have : PyDict.get? ds k = none := (PyDict.get?_eq_none_iff ds k).2 ha
      simp [this]
    · have h' : ¬ a = k := fun e => h e.symm
      simp [h, h']

theorem fillDefault_dict (ds : List (Name × Val)) : ∀ (d : PyDict Name Val), PyDict.WF ds → ∃ r, fillDefault ds (.dict d) = .ok (.dict r) ∧
    ∀ k, r.get? k = (d.get? k).or (PyDict.get? ds k) := by
  induction ds with
  | nil => intro d _; exact ⟨d, rfl, fun k => by simp⟩
  | cons x ds ih =>
    intro d hw
    obtain ⟨a, v⟩ := x
    have hw' : PyDict.WF ds := by
      unfold PyDict.WF PyDict.keys at hw ⊢
      exact (List.nodup_cons.1 hw).2
    cases hm : d.mem a with
    | true =>
      obtain ⟨r, h1, h2⟩ := ih d hw'
      refine ⟨r, by simp [fillDefault, Conf.has, hm, h1], ?_⟩
      intro k
      rw [h2, PyDict.get?_cons]
      by_cases h : a = k
      · subst h
        have := (PyDict.get?_isSome_iff d a).2 ((PyDict.mem_iff d a).1 hm)
        cases hd : d.get? a with
        | none => simp [hd] at this
        | some w => simp
      · simp [h]
    | false =>
      obtain ⟨r, h1, h2⟩ := ih (d.set a v) hw'
      refine ⟨r, by simp [fillDefault, Conf.has, Conf.put, hm, h1], ?_⟩
      intro k
      rw [h2, PyDict.get?_cons, PyDict.get?_set]
      by_cases h : k = a
      · subst h
        have : d.get? k = none := (PyDict.get?_eq_none_iff d k).2 ((PyDict.mem_eq_false_iff d k).1 hm)
        simp [this]
      · have h' : ¬ a = k := fun e => h e.symm
        simp [h, h']

theorem setInner_dict (xs : List (Key × String)) : ∀ (d : PyDict Name Val) (f : PyDict Key String), d.get? (nm "frame_config") = some (.dict f) →
    ∃ r, setInner xs (.dict d) = .ok (.dict r) ∧ r.get? (nm "frame_config") = some (.dict (mergeDicts f xs)) ∧
      ∀ k, k ≠ nm "frame_config" → r.get? k = d.get? k := by
  induction xs with
  | nil => intro d f h; exact ⟨d, rfl, h, fun _ _ => rfl⟩
  | cons x xs ih =>
    intro d f h
    obtain ⟨a, v⟩ := x
    obtain ⟨r, h1, h2, h3⟩ := ih (d.set (nm "frame_config") (.dict (f.set a v))) (f.set a v) (by rw [PyDict.get?_set, if_pos rfl])
    refine ⟨r, by simp [setInner, Conf.item, h, Conf.mutate, h1], h2, ?_⟩
    intro k hk
    rw [h3 k hk, PyDict.get?_set, if_neg hk]

/-- The assignments at the beginning of `generate_config`. -/
def heads (al : Algo) : List (Name × Val) :=
  [(nm "frame", .text (name al))] ++
    (if (batchNum al).isSome then [(nm "batch_num", .text "{'sampler': 10, 'learner': 1}")] else [])

theorem heads_wf (al : Algo) : PyDict.WF (heads al) := by cases al <;> (unfold PyDict.WF; decide +kernel)

theorem heads_fc (al : Algo) : PyDict.get? (heads al) (nm "frame_config") = none := by cases al <;> decide +kernel

theorem own_dict (al : Algo) (d : PyDict Name Val) :
    (∀ f, (d.get? (nm "frame_config") = some (.dict f) ∨ d.get? (nm "frame_config") = none ∧ f = []) →
      ∃ r, own al (.dict d) = .ok (.dict r) ∧ (∃ g, r.get? (nm "frame_config") = some (.dict g) ∧ ∀ k, g.get? k = (PyDict.get? (defaults al) k).or (f.get? k)) ∧
        ∀ k, k ≠ nm "frame_config" → r.get? k = (PyDict.get? (heads al) k).or (d.get? k)) ∧
    (∀ v, d.get? (nm "frame_config") = some v → (∀ f, v ≠ .dict f) → own al (.dict d) = .error .type) := by
  obtain ⟨r0, h1, h2⟩ := putAll_dict (heads al) d (heads_wf al)
  have hfc : r0.get? (nm "frame_config") = d.get? (nm "frame_config") := by rw [h2, heads_fc]; simp
  have hown : own al (.dict d) = match (Conf.dict r0).has (nm "frame_config") with
      | .error e => .error e
      | .ok false => (Conf.dict r0).put (nm "frame_config") (.dict (defaults al))
      | .ok true =>
        match (Conf.dict r0).item (nm "frame_config") with
        | .error e => .error e
        | .ok (.dict d) => (Conf.dict r0).put (nm "frame_config") (.dict (mergeDicts d (defaults al)))
        | .ok _ => .error .type := by
    unfold own
    have : putAll ([(nm "frame", .text (name al))] ++
      (if (batchNum al).isSome then [(nm "batch_num", .text "{'sampler': 10, 'learner': 1}")] else [])) (.dict d) = .ok (.dict r0) := h1
    rw [this]
    rfl
  constructor
  · intro f hf
    rcases hf with hf | ⟨hf, rfl⟩
    · have hm : r0.mem (nm "frame_config") = true := by
        rw [PyDict.mem_iff, ← PyDict.get?_isSome_iff, hfc, hf]
        rfl
      refine ⟨r0.set (nm "frame_config") (.dict (mergeDicts f (defaults al))), ?_, ⟨_, by rw [PyDict.get?_set, if_pos rfl], ?_⟩, ?_⟩
      · rw [hown]
        simp only [Conf.has, hm, Conf.item, hfc, hf]
        rfl
      · intro k
        exact mergeDicts_get _ _ (defaults_wf al) k
      · intro k hk
        rw [PyDict.get?_set, if_neg hk, h2]
    · have hm : r0.mem (nm "frame_config") = false := by
        rw [PyDict.mem_eq_false_iff, ← PyDict.get?_eq_none_iff, hfc, hf]
      refine ⟨r0.set (nm "frame_config") (.dict (defaults al)), ?_, ⟨_, by rw [PyDict.get?_set, if_pos rfl], ?_⟩, ?_⟩
      · rw [hown]
        simp only [Conf.has, hm]
        rfl
      · intro k
        simp
      · intro k hk
        rw [PyDict.get?_set, if_neg hk, h2]
  · intro v hv hne
    have hm : r0.mem (nm "frame_config") = true := by
      rw [PyDict.mem_iff, ← PyDict.get?_isSome_iff, hfc, hv]
      rfl
    rw [hown]
    cases v with
    | dict f => exact absurd rfl (hne f)
    | none => simp only [Conf.has, hm, Conf.item, hfc, hv]
    | text s => simp only [Conf.has, hm, Conf.item, hfc, hv]
    | member n => simp only [Conf.has, hm, Conf.item, hfc, hv]

theorem defaults_root (al : Algo) (h : parent al = none) : root al = al := by simp [root, h]

/-- `generate_config` for a dictionary. -/
theorem generateConfig_dict (al : Algo) (d : PyDict Name Val) :
    (∀ f, (d.get? (nm "frame_config") = some (.dict f) ∨ d.get? (nm "frame_config") = none ∧ f = []) →
      ∃ r, generateConfig al (.dict d) = .ok (.dict r) ∧
        (∃ g, r.get? (nm "frame_config") = some (.dict g) ∧ ∀ k, g.get? k = ((generated al).get? k).or (f.get? k)) ∧
        ∀ k, k ≠ nm "frame_config" → r.get? k = (PyDict.get? (heads al) k).or (d.get? k)) ∧
    (∀ v, d.get? (nm "frame_config") = some v → (∀ f, v ≠ .dict f) → generateConfig al (.dict d) = .error .type) := by
  cases hp : parent al with
  | none =>
    have hg : generated al = defaults al := by
      have : extras al = [] := by cases al <;> simp_all [parent, extras]
      simp [generated, this, mergeDicts, root, hp]
    have := own_dict al d
    unfold generateConfig
    rw [hp, hg]
    exact this
  | some b =>
    obtain ⟨o1, o2⟩ := own_dict b d
    have hroot : root al = b := by simp [root, hp]
    have hheads : ∀ k, PyDict.get? (heads al) k = if k = nm "frame" then some (.text (name al)) else none := by
      intro k
      have hb : (batchNum al).isSome = false := by cases al <;> simp_all [parent, batchNum]
      simp only [heads, hb, Bool.false_eq_true, if_false, List.append_nil, PyDict.get?_cons, PyDict.get?_nil]
      by_cases h : k = nm "frame"
      · simp [h]
      · have h' : ¬ nm "frame" = k := fun e => h e.symm
        simp [h, h']
    have hheadsb : ∀ k, PyDict.get? (heads b) k = if k = nm "frame" then some (.text (name b)) else none := by
      intro k
      have hb : (batchNum b).isSome = false := by cases al <;> simp_all [parent] <;> subst hp <;> simp [batchNum]
      simp only [heads, hb, Bool.false_eq_true, if_false, List.append_nil, PyDict.get?_cons, PyDict.get?_nil]
      by_cases h : k = nm "frame"
      · simp [h]
      · have h' : ¬ nm "frame" = k := fun e => h e.symm
        simp [h, h']
    constructor
    · intro f hf
      obtain ⟨r, h1, ⟨g, h2, h3⟩, h4⟩ := o1 f hf
      have hne : nm "frame_config" ≠ nm "frame" := by decide
      obtain ⟨r', s1, s2, s3⟩ := setInner_dict (extras al) (r.set (nm "frame") (.text (name al))) g (by
        rw [PyDict.get?_set, if_neg hne, h2])
      refine ⟨r', ?_, ⟨_, s2, ?_⟩, ?_⟩
      · unfold generateConfig
        rw [hp]
        simp only [h1, Conf.put]
        exact s1
      · intro k
        rw [mergeDicts_get _ _ (extras_wf al), h3]
        unfold generated
        rw [mergeDicts_get _ _ (extras_wf al), hroot]
        cases PyDict.get? (extras al) k <;> simp
      · intro k hk
        rw [s3 k hk, PyDict.get?_set, hheads]
        by_cases h : k = nm "frame"
        · simp [h]
        · rw [if_neg h, h4 k hk, hheadsb]
          simp [h]
    · intro v hv hne
      unfold generateConfig
      rw [hp]
      simp only [o2 v hv hne]

/-- The keys that `generate_config` writes are ordinary ones of a `Config`. -/
def Plain (k : Name) : Prop := Config.dunder k = false ∧ k ∉ Config.dirNames

theorem plain_put (o : Config.Obj Val) (hc : o.consts = []) (k : Name) (hk : Plain k) (v : Val) :
    (Conf.obj o).put k v = .ok (.obj { o with data := o.data.set k v }) := by
  have h1 : k ≠ Config.nData := fun e => hk.2 (by rw [e]; decide)
  have h2 : k ≠ Config.nAttr := fun e => hk.2 (by rw [e]; decide)
  have h3 : k ≠ Config.nCall := fun e => hk.2 (by rw [e]; decide)
  simp [Conf.put, Config.setItem, Config.setAttr, hk.1, hk.2, h1, h2, h3, hc]

theorem plain_item (o : Config.Obj Val) (k : Name) (hk : Plain k) (v : Val) (h : o.data.get? k = some v) : (Conf.obj o).item k = .ok v := by
  have h3 : k ≠ Config.nCall := fun e => hk.2 (by rw [e]; decide)
  simp [Conf.item, Config.getItem, Config.getAttr, hk.1, hk.2, h3, h]

theorem plain_putAll : ∀ (xs : List (Name × Val)) (o : Config.Obj Val), o.consts = [] → (∀ x ∈ xs, Plain x.1) → ∀ r, putAll xs (.dict o.data) = .ok (.dict r) →
    putAll xs (.obj o) = .ok (.obj { o with data := r })
  | [], o, _, _, r, h => by
    simp only [putAll, Except.ok.injEq, Conf.dict.injEq] at h
    subst h
    rfl
  | (k, v) :: xs, o, hc, hk, r, h => by
    simp only [putAll, Conf.put] at h
    simp only [putAll, plain_put o hc k (hk (k, v) (by simp)) v]
    exact plain_putAll xs { o with data := o.data.set k v } hc (fun x hx => hk x (by simp [hx])) r h

theorem plain_setInner : ∀ (xs : List (Key × String)) (o : Config.Obj Val) (f : PyDict Key String), o.data.get? (nm "frame_config") = some (.dict f) →
    ∀ r, setInner xs (.dict o.data) = .ok (.dict r) → setInner xs (.obj o) = .ok (.obj { o with data := r })
  | [], o, _, _, r, h => by
    simp only [setInner, Except.ok.injEq, Conf.dict.injEq] at h
    subst h
    rfl
  | (k, s) :: xs, o, f, hf, r, h => by
    have hfc : Plain (nm "frame_config") := ⟨by decide, by decide⟩
    simp only [setInner, Conf.item, hf, Conf.mutate] at h
    simp only [setInner, plain_item o _ hfc _ hf, Conf.mutate]
    exact plain_setInner xs { o with data := o.data.set (nm "frame_config") (.dict (f.set k s)) } (f.set k s)
      (by show PyDict.get? (o.data.set _ _) _ = _; rw [PyDict.get?_set, if_pos rfl]) r h

theorem heads_plain (al : Algo) : ∀ x ∈ heads al, Plain x.1 := by
  have p1 : Plain (nm "frame") := ⟨by decide, by decide⟩
  have p2 : Plain (nm "batch_num") := ⟨by decide, by decide⟩
  intro x hx
  unfold heads at hx
  split at hx <;> simp only [List.mem_append, List.mem_singleton, List.not_mem_nil, or_false] at hx
  · rcases hx with rfl | rfl
    · exact p1
    · exact p2
  · subst hx
    exact p1

theorem own_obj (al : Algo) (o : Config.Obj Val) (hc : o.consts = []) (f : PyDict Key String) (hf : o.data.get? (nm "frame_config") = some (.dict f)) (r : PyDict Name Val)
    (h : own al (.dict o.data) = .ok (.dict r)) : own al (.obj o) = .ok (.obj { o with data := r }) := by
  obtain ⟨r0, h1, h2⟩ := putAll_dict (heads al) o.data (heads_wf al)
  have h0 := plain_putAll (heads al) o hc (heads_plain al) r0 h1
  have hfc : Plain (nm "frame_config") := ⟨by decide, by decide⟩
  have hg : r0.get? (nm "frame_config") = some (.dict f) := by
    rw [h2, heads_fc]
    simpa using hf
  have hm : r0.mem (nm "frame_config") = true := by
    rw [PyDict.mem_iff, ← PyDict.get?_isSome_iff, hg]
    rfl
  unfold own at h ⊢
  unfold heads at h0 h1
  rw [h1] at h
  rw [h0]
  simp only [Conf.has, hm, Conf.item, hg, Conf.put, Except.ok.injEq, Conf.dict.injEq] at h
  have hi : (Conf.obj { o with data := r0 }).item (nm "frame_config") = .ok (.dict f) := plain_item _ _ hfc _ hg
  have hh : (Conf.obj { o with data := r0 }).has (nm "frame_config") = .ok true := by simp [Conf.has, Config.contains, hfc.1, Config.hasAttr]
  simp only [hh, hi]
  rw [plain_put { o with data := r0 } hc _ hfc]
  subst h
  rfl

theorem generateConfig_obj (al : Algo) (o : Config.Obj Val) (hc : o.consts = []) (f : PyDict Key String) (hf : o.data.get? (nm "frame_config") = some (.dict f)) :
    ∃ r, generateConfig al (.dict o.data) = .ok (.dict r) ∧ generateConfig al (.obj o) = .ok (.obj { o with data := r }) := by
  obtain ⟨r, h1, -⟩ := (generateConfig_dict al o.data).1 f (Or.inl hf)
  refine ⟨r, h1, ?_⟩
  unfold generateConfig at h1 ⊢
  cases hp : parent al with
  | none =>
    rw [hp] at h1
    exact own_obj al o hc f hf r h1
  | some b =>
    rw [hp] at h1
    obtain ⟨r1, h2, ⟨g, hg, -⟩, -⟩ := (own_dict b o.data).1 f (Or.inl hf)
    have h3 := own_obj b o hc f hf r1 h2
    simp only [h2, Conf.put] at h1
    simp only [h3]
    rw [plain_put { o with data := r1 } hc _ ⟨by decide, by decide⟩]
    exact plain_setInner (extras al) { o with data := r1.set (nm "frame") (.text (name al)) } g
      (by show PyDict.get? (r1.set _ _) _ = _; rw [PyDict.get?_set, if_neg (by decide), hg]) r h1

theorem algoOf_name (al : Algo) : algoOf (name al) = some al := by cases al <;> decide +kernel

/-- The assignments of `generate_algorithm_config`. -/
def tails (al : Algo) : List (Name × Val) :=
  if al ∈ distributed then [(nm "gpus", .text "[0, 0, 0]"), (nm "num_processes", .text "3"), (nm "num_nodes", .text "1")]
  else [(nm "gpus", .text "[0]")]

theorem tails_wf (al : Algo) : PyDict.WF (tails al) := by cases al <;> (unfold PyDict.WF; decide +kernel)

theorem tails_fc (al : Algo) : PyDict.get? (tails al) (nm "frame_config") = none := by cases al <;> decide +kernel

theorem generateAlgorithm_dict (al : Algo) (d : PyDict Name Val) (f : PyDict Key String)
    (hf : d.get? (nm "frame_config") = some (.dict f) ∨ d.get? (nm "frame_config") = none ∧ f = []) :
    ∃ r, generateAlgorithm (name al) (some (.dict d)) = .ok (.dict r) ∧
      (∃ g, r.get? (nm "frame_config") = some (.dict g) ∧ ∀ k, g.get? k = ((generated al).get? k).or (f.get? k)) ∧
      ∀ k, k ≠ nm "frame_config" → r.get? k = ((PyDict.get? (tails al) k).or (PyDict.get? (heads al) k)).or (d.get? k) := by
  obtain ⟨r, h1, ⟨g, h2, h3⟩, h4⟩ := (generateConfig_dict al d).1 f hf
  obtain ⟨r', t1, t2⟩ := putAll_dict (tails al) r (tails_wf al)
  refine ⟨r', ?_, ⟨g, ?_, h3⟩, ?_⟩
  · unfold generateAlgorithm
    simp only [algoOf_name, orEmpty, h1]
    unfold tails at t1
    split
    · rename_i h; rw [if_pos h] at t1; exact t1
    · rename_i h; rw [if_neg h] at t1; exact t1
  · rw [t2, tails_fc, h2]; rfl
  · intro k hk
    rw [t2, h4 k hk]
    cases PyDict.get? (tails al) k <;> simp

theorem assertAll_dict (d : PyDict Name Val) (ks : List String) :
    (assertAll (.dict d) ks = .ok () ↔ ∀ k ∈ ks, (d.get? (nm k)).isSome) ∧
    (assertAll (.dict d) ks = .ok () ∨ assertAll (.dict d) ks = .error .assertion) := by
  induction ks with
  | nil => simp [assertAll]
  | cons k ks ih =>
    have hk : (d.get? (nm k)).isSome = d.mem (nm k) := by
      rw [Bool.eq_iff_iff, PyDict.get?_isSome_iff, PyDict.mem_iff]
    cases hm : d.mem (nm k) with
    | true =>
      have e : assertAll (.dict d) (k :: ks) = assertAll (.dict d) ks := by simp [assertAll, assertHas, Conf.has, hm]
      rw [e]
      refine ⟨?_, ih.2⟩
      rw [ih.1]
      simp [hk, hm]
    | false =>
      have e : assertAll (.dict d) (k :: ks) = .error .assertion := by simp [assertAll, assertHas, Conf.has, hm]
      rw [e]
      refine ⟨?_, Or.inr rfl⟩
      simp [hk, hm]

end Machin.Launch
