import Verif.Rnn.DistPrio
import Verif.Rnn.Lemmas
import Verif.Dist.Lemmas

/-! # C216, C217: distributed RNN buffers -/

namespace Machin.Rnn

open Replay Prio Dist Spec

/-- Items used in the examples: `0` is an invalid item. -/
abbrev dConv : Nat → Except Err Nat := fun x => if x = 0 then .error .value else .ok x
/-- A normalisation of priorities used in the examples. -/
abbrev dNorm : ℚ → ℚ := fun p => |p| + 1 / 100
/-- A power used in the examples. -/
abbrev dPow : ℚ → ℚ → ℚ := fun x y => x * y

/-- A member with an episode of three steps, for windows of two steps. -/
abbrev dMember : DPBuffer Nat := (storeD dConv dNorm 2 (DPBuffer.new Nat 4 (2 / 5) (1 / 1000)) [1, 2, 3] none false none).1

/-- An empty member. -/
abbrev dEmpty : DPBuffer Nat := DPBuffer.new Nat 4 (2 / 5) (1 / 1000)

/-! ### C216 -/

/-- C216, full statement: if the sampling service of no member raises, sampling from the group does not raise either. -/
def C216_full : Prop :=
  ∀ (τ : Type) (pw : ℚ → ℚ → ℚ) (L : Nat) (ms : List (PMember τ)) (batchSize : Nat),
    let weights := ms.map fun m => m.buf.base.tree.weightSum
    (∀ q ∈ ms.zip (sampleSizes weights batchSize),
      ∃ r, (sampleService pw L q.1.buf ((List.range q.2.toNat).map q.1.draws) (weights.sum + 1 / 1000000)).2 = .ok r) →
    ∃ c, groupSample pw L ms batchSize = .ok c

/-- A member that is asked for nothing, or that has no transitions, makes the whole call raise `ValueError`: its answer has four entries, not five. -/
theorem C216_silent_member {τ : Type} (pw : ℚ → ℚ → ℚ) (L : Nat) (before after : List (String × Except Err (Option (SampleRes τ)))) (m : String) (b : DPBuffer τ)
    (draws : List ℚ) (all : ℚ) (hsilent : draws = [] ∨ b.base.buf.size = 0) (hbefore : ∀ q ∈ before, ∃ r, q.2 = .ok (some r)) (acc : Collected τ) :
    unpackAll (before ++ (m, (sampleService pw L b draws all).2) :: after) acc = .error .value := by
  have h0 : (sampleService pw L b draws all).2 = .ok none := by
    unfold sampleService
    rw [if_pos]
    rcases hsilent with h | h
    · left; simp [h]
    · exact Or.inr h
  rw [h0]
  induction before generalizing acc with
  | nil => rfl
  | cons q before ih =>
    obtain ⟨n, x⟩ := q
    obtain ⟨r, hr⟩ := hbefore (n, x) (by simp)
    simp only at hr
    subst hr
    simp only [List.cons_append, unpackAll]
    split
    · exact ih (fun q hq => hbefore q (by simp [hq])) _
    · exact ih (fun q hq => hbefore q (by simp [hq])) _

/-- An exception of a service is raised again by the call: of several, the one of the first member. -/
theorem C216_first_error_partial {τ : Type} (before after : List (String × Except Err (Option (SampleRes τ)))) (m : String) (e : Err)
    (hbefore : ∀ q ∈ before, ∃ r, q.2 = .ok (some r)) (acc : Collected τ) :
    unpackAll (before ++ (m, .error e) :: after) acc = .error e := by
  induction before generalizing acc with
  | nil => rfl
  | cons q before ih =>
    obtain ⟨n, x⟩ := q
    obtain ⟨r, hr⟩ := hbefore (n, x) (by simp)
    simp only at hr
    subst hr
    simp only [List.cons_append, unpackAll]
    split
    · exact ih (fun q hq => hbefore q (by simp [hq])) _
    · exact ih (fun q hq => hbefore q (by simp [hq])) _

example : unpackAll (τ := Nat) [("a", .ok (some ⟨1, [4], [0], [0], [1]⟩)), ("b", .error .index), ("c", .error .value)] ⟨0, [], [], []⟩ = .error .index := rfl

theorem error_of_map {α β : Type} {x : Except Err α} {f : α → β} {e : Err} (h : x.map f = .error e) : x = .error e := by
  cases x with
  | error e' => simp only [Except.map, Except.error.injEq] at h; rw [h]
  | ok a => simp [Except.map] at h

theorem ok_of_map {α : Type} {x : Except Err α} (h : x.map (fun _ => ()) = .ok ()) : ∃ r, x = .ok r := by
  cases x with
  | error e' => simp [Except.map] at h
  | ok a => exact ⟨a, rfl⟩

/-- The witness: a group of two members, one of which has not stored anything yet. Alone, the first member answers. -/
theorem C216_violated_group :
    groupSample dPow 2 [⟨"a", dMember, fun _ => 1 / 2⟩, ⟨"b", dEmpty, fun _ => 1 / 2⟩] 2 = .error .value ∧
    (groupSample dPow 2 [⟨"a", dMember, fun _ => 1 / 2⟩] 2).map (fun c => c.map fun c => (c.batch, c.index.map (·.2.1))) = .ok (some ([1, 2, 2, 3], [[0, 1]])) := by
  refine ⟨error_of_map (f := fun _ => ()) ?_, ?_⟩ <;> decide +kernel

/-- C216 is violated. -/
theorem C216_violated : ¬ C216_full := by
  intro h
  obtain ⟨c, hc⟩ := h Nat dPow 2 [⟨"a", dMember, fun _ => 1 / 2⟩, ⟨"b", dEmpty, fun _ => 1 / 2⟩] 2 (by
    intro q hq
    have e : ([⟨"a", dMember, fun _ => 1 / 2⟩, ⟨"b", dEmpty, fun _ => 1 / 2⟩] : List (PMember Nat)).zip
        (sampleSizes ([⟨"a", dMember, fun _ => 1 / 2⟩, ⟨"b", dEmpty, fun _ => 1 / 2⟩].map
          fun m : PMember Nat => m.buf.base.tree.weightSum) 2) =
        [(⟨"a", dMember, fun _ => 1 / 2⟩, 2), (⟨"b", dEmpty, fun _ => 1 / 2⟩, 0)] := by
      have : sampleSizes ([⟨"a", dMember, fun _ => 1 / 2⟩, ⟨"b", dEmpty, fun _ => 1 / 2⟩].map
          fun m : PMember Nat => m.buf.base.tree.weightSum) 2 = [2, 0] := by decide +kernel
      rw [this]; rfl
    rw [e] at hq
    rcases List.mem_cons.1 hq with rfl | hq
    · exact ok_of_map (by decide +kernel)
    · have := List.mem_singleton.1 hq
      subst this
      exact ⟨none, by decide +kernel⟩)
  rw [C216_violated_group.1] at hc
  cases hc

theorem service_inv {τ : Type} (pw : ℚ → ℚ → ℚ) (L : Nat) (b : DPBuffer τ) (draws : List ℚ) (all : ℚ) (r : SampleRes τ)
    (h : (sampleService pw L b draws all).2 = .ok (some r)) :
    r.len = r.index.length ∧ r.len = r.version.length ∧ b.base.buf.fetch (r.index.flatMap fun i => List.range' i L) = .ok r.batch := by
  unfold sampleService at h
  split at h
  · simp at h
  · rcases hs : b.base.sampleIndexAndWeight pw draws (some all) with ⟨base, e | ⟨index, ws⟩⟩
    · simp [hs] at h
    · have hb : base.buf = b.base.buf := by
        unfold PBuffer.sampleIndexAndWeight at hs
        split at hs
        · simp at hs
        · split at hs
          · simp at hs
          · simp only [Prod.mk.injEq] at hs; rw [← hs.1]
      simp only [hs] at h
      cases hv : versionsAt b.versions index.flat with
      | error e => simp [hv] at h
      | ok version =>
        cases index with
        | scalar x => simp [hv, fetchWindows] at h
        | array is =>
          simp only [hv, fetchWindows, hb] at h
          cases hf : b.base.buf.fetch (is.flatMap fun i => List.range' i L) with
          | error e => simp [hf] at h
          | ok batch =>
            simp only [hf, Except.ok.injEq, Option.some.injEq] at h
            subst h
            refine ⟨rfl, ?_, hf⟩
            have : ∀ (l v : List Nat), versionsAt b.versions l = .ok v → l.length = v.length := by
              intro l
              induction l with
              | nil => intro v hv; simp [versionsAt] at hv; subst hv; rfl
              | cons i l ih =>
                intro v hv
                simp only [versionsAt] at hv
                cases h1 : b.versions[i]? with
                | none => simp [h1] at hv
                | some x =>
                  cases h2 : versionsAt b.versions l with
                  | error e => simp [h1, h2] at hv
                  | ok y => simp [h1, h2] at hv; subst hv; simp [ih y h2]
            exact this _ _ hv

theorem fetch_length {τ : Type} (b : Buffer τ) : ∀ (hs : List Nat) (xs : List τ), b.fetch hs = .ok xs → xs.length = hs.length := by
  intro hs
  induction hs with
  | nil => intro xs h; simp [Buffer.fetch] at h; subst h; rfl
  | cons a hs ih =>
    intro xs h
    simp only [Buffer.fetch] at h
    cases h1 : b.storage.getItem a with
    | error e => simp [h1] at h
    | ok x =>
      cases h2 : b.fetch hs with
      | error e => simp [h1, h2] at h
      | ok ys => simp [h1, h2] at h; subst h; simp [ih ys h2]

theorem unpackAll_ok {τ : Type} : ∀ (qs : List (String × SampleRes τ)) (acc : Collected τ),
    unpackAll (qs.map fun q => (q.1, .ok (some q.2))) acc = .ok (collect qs acc) := by
  intro qs
  induction qs with
  | nil => intro acc; rfl
  | cons q qs ih =>
    intro acc
    simp only [List.map_cons, unpackAll, collect]
    split <;> exact ih _

theorem findAll_length (t : WeightTree) : ∀ (qs : List ℚ) (is : List Nat), t.findAll qs = .ok is → is.length = qs.length := by
  intro qs
  induction qs with
  | nil => intro is h; simp [WeightTree.findAll] at h; subst h; rfl
  | cons q qs ih =>
    intro is h
    simp only [WeightTree.findAll] at h
    split at h
    · simp at h
    · split at h
      · simp at h
      · next hrec => simp at h; subst h; simp [ih _ hrec]

theorem service_len {τ : Type} (pw : ℚ → ℚ → ℚ) (L : Nat) (b : DPBuffer τ) (draws : List ℚ) (all : ℚ) (r : SampleRes τ)
    (h : (sampleService pw L b draws all).2 = .ok (some r)) : r.len = draws.length := by
  rw [(service_inv pw L b draws all r h).1]
  unfold sampleService at h
  split at h
  · simp at h
  · rcases hs : b.base.sampleIndexAndWeight pw draws (some all) with ⟨base, e | ⟨index, ws⟩⟩
    · simp [hs] at h
    · have hl : index.flat.length = draws.length := by
        unfold PBuffer.sampleIndexAndWeight at hs
        split at hs
        · simp at hs
        · next idx hidx =>
          split at hs
          · simp at hs
          · simp only [Prod.mk.injEq, Except.ok.injEq] at hs
            obtain ⟨-, hi, -⟩ := hs
            subst hi
            unfold WeightTree.findLeafIndex at hidx
            cases hfa : b.base.tree.findAll (queries b.base.tree.weightSum draws) with
            | error e => simp [hfa] at hidx
            | ok is =>
              simp only [hfa, Except.ok.injEq] at hidx
              have hlen := findAll_length _ _ _ hfa
              simp only [queries, List.length_mapIdx] at hlen
              rw [← hidx, ← hlen]
              match is with
              | [] => rfl
              | [_] => rfl
              | _ :: _ :: _ => rfl
      simp only [hs] at h
      cases hv : versionsAt b.versions index.flat with
      | error e => simp [hv] at h
      | ok version =>
        cases hf : fetchWindows base.buf L index with
        | error e => simp [hv, hf] at h
        | ok batch =>
          simp only [hv, hf, Except.ok.injEq, Option.some.injEq] at h
          subst h
          exact hl

/-- C216, what does hold: if every member of the group answers with samples (which takes at least two samples asked of each
of them, and transitions in each of their buffers), the batch consists of the windows of the members, one member after the
other, `L` transitions for each of the drawn positions, and as many windows as were asked of the members; and with one
priority per window, `update_priority` cuts the priorities into pieces that line up with the members' positions. -/
theorem C216_windows_partial {τ : Type} (pw : ℚ → ℚ → ℚ) (L : Nat) (ms : List (PMember τ)) (hms : ms ≠ []) (hnd : (ms.map (·.name)).Nodup)
    (batchSize : Nat) (hB : 1 ≤ batchSize) (rs : List (SampleRes τ))
    (hrs : let weights := ms.map fun m => m.buf.base.tree.weightSum
      (ms.zip (sampleSizes weights batchSize)).map (fun q =>
        (sampleService pw L q.1.buf ((List.range q.2.toNat).map q.1.draws) (weights.sum + 1 / 1000000)).2) = rs.map fun r => .ok (some r)) :
    ∃ c, groupSample pw L ms batchSize = .ok (some c) ∧
      rs.length = ms.length ∧
      c.batch = (rs.map (·.batch)).flatten ∧
      (∀ (j : Nat) (m : PMember τ) (r : SampleRes τ), ms[j]? = some m → rs[j]? = some r →
        m.buf.base.buf.fetch (r.index.flatMap fun i => List.range' i L) = .ok r.batch) ∧
      c.len = ((sampleSizes (ms.map fun m => m.buf.base.tree.weightSum) batchSize).map Int.toNat).sum ∧
      c.batch.length = c.len * L ∧
      ∀ ps : List ℚ, ps.length = c.len →
        ∃ pss : List (List ℚ), pss.flatten = ps ∧ pss.map List.length = rs.map (·.index.length) ∧
          updateCalls ps c.index 0 = ((ms.zip rs).zip pss).map fun x => (x.1.1.name, x.2, x.1.2.index, x.1.2.version) := by
  simp only at hrs
  obtain ⟨sizes, hsz⟩ : ∃ sizes, sizes = sampleSizes (ms.map fun m => m.buf.base.tree.weightSum) batchSize := ⟨_, rfl⟩
  have hsl : sizes.length = ms.length := by rw [hsz]; simp [sampleSizes]
  obtain ⟨all, hall⟩ : ∃ all : ℚ, all = (ms.map fun m => m.buf.base.tree.weightSum).sum + 1 / 1000000 := ⟨_, rfl⟩
  rw [← hsz, ← hall] at hrs
  rw [← hsz]
  have hrl : rs.length = ms.length := by
    have := congrArg List.length hrs
    simp only [List.length_map, List.length_zip, hsl, Nat.min_self] at this
    exact this.symm
  have hat : ∀ (j : Nat) (m : PMember τ) (r : SampleRes τ), ms[j]? = some m → rs[j]? = some r →
      ∃ n, sizes[j]? = some n ∧ (sampleService pw L m.buf ((List.range n.toNat).map m.draws) all).2 = .ok (some r) := by
    intro j m r hm hr
    have hj : j < sizes.length := by rw [hsl]; exact (List.getElem?_eq_some_iff.1 hm).1
    refine ⟨sizes[j], List.getElem?_eq_getElem hj, ?_⟩
    have := congrArg (fun l => l[j]?) hrs
    have hz : (ms.zip sizes)[j]? = some (m, sizes[j]) := List.getElem?_zip_eq_some.2 ⟨hm, List.getElem?_eq_getElem hj⟩
    simp only [List.getElem?_map, hr, Option.map_some, hz] at this
    exact Option.some.inj this
  have hinv : ∀ r ∈ rs, r.len = r.index.length ∧ r.len = r.version.length ∧ r.batch.length = r.len * L ∧ r.len ≠ 0 := by
    intro r hr
    obtain ⟨j, hj, rfl⟩ := List.mem_iff_getElem.1 hr
    obtain ⟨n, h1, h2⟩ := hat j ms[j] rs[j] (List.getElem?_eq_getElem (by omega)) (List.getElem?_eq_getElem hj)
    obtain ⟨k1, k2, k3⟩ := service_inv _ _ _ _ _ _ h2
    refine ⟨k1, k2, ?_, ?_⟩
    · rw [fetch_length _ _ _ k3, k1]
      simp
    · rw [service_len _ _ _ _ _ _ h2]
      intro h0
      unfold sampleService at h2
      rw [if_pos (Or.inl h0)] at h2
      simp at h2
  have hlens : rs.map (·.len) = sizes.map Int.toNat := by
    apply List.ext_getElem?
    intro j
    by_cases hj : j < ms.length
    · obtain ⟨n, h1, h2⟩ := hat j ms[j] (rs[j]'(by omega)) (List.getElem?_eq_getElem hj) (List.getElem?_eq_getElem (by omega))
      have := service_len _ _ _ _ _ _ h2
      simp only [List.getElem?_map, h1, List.getElem?_eq_getElem (show j < rs.length by omega), Option.map_some, this, List.length_map,
        List.length_range]
    · rw [List.getElem?_eq_none (by simp; omega), List.getElem?_eq_none (by simp; omega)]
  obtain ⟨qs, hqs⟩ : ∃ qs, qs = (ms.map (·.name)).zip rs := ⟨_, rfl⟩
  have hfst : qs.map (·.1) = ms.map (·.name) := by rw [hqs]; exact List.map_fst_zip (by simp [hrl])
  have hsnd : qs.map (·.2) = rs := by rw [hqs]; exact List.map_snd_zip (by simp [hrl])
  have hlist : (ms.zip sizes).map (fun q => (q.1.name, (sampleService pw L q.1.buf ((List.range q.2.toNat).map q.1.draws) all).2)) =
      qs.map fun q => (q.1, .ok (some q.2)) := by
    apply List.ext_getElem?
    intro j
    by_cases hj : j < ms.length
    · obtain ⟨n, h1, h2⟩ := hat j ms[j] (rs[j]'(by omega)) (List.getElem?_eq_getElem hj) (List.getElem?_eq_getElem (by omega))
      have hz1 : (ms.zip sizes)[j]? = some (ms[j], n) := List.getElem?_zip_eq_some.2 ⟨List.getElem?_eq_getElem hj, h1⟩
      have hz2 : qs[j]? = some (ms[j].name, rs[j]'(by omega)) := by
        rw [hqs]
        exact List.getElem?_zip_eq_some.2 ⟨by simp [List.getElem?_eq_getElem hj], List.getElem?_eq_getElem (by omega)⟩
      simp only [List.getElem?_map, hz1, hz2, Option.map_some, h2]
    · rw [List.getElem?_eq_none (by simp; omega), List.getElem?_eq_none (by simp [hqs]; omega)]
  have hc := collect_append qs (⟨0, [], [], []⟩ : Collected τ) (by rw [hfst]; exact hnd) (by intro m _; simp [PyDict.keys])
  have hfil : qs.filter (fun p => p.2.len ≠ 0) = qs := by
    apply List.filter_eq_self.2
    intro q hq
    have : q.2 ∈ rs := by rw [← hsnd]; exact List.mem_map.2 ⟨q, hq, rfl⟩
    simpa using (hinv q.2 this).2.2.2
  simp only [List.nil_append, Nat.zero_add, hfil] at hc
  have hlenS : (qs.map (·.2.len)).sum = (sizes.map Int.toNat).sum := by
    rw [← hlens, ← hsnd, List.map_map]; rfl
  have hbat : (qs.map (·.2.batch)) = rs.map (·.batch) := by rw [← hsnd, List.map_map]; rfl
  have hpos : (sizes.map Int.toNat).sum ≠ 0 := by
    rw [← hlens]
    intro h0
    cases rs with
    | nil => exact hms (List.length_eq_zero_iff.1 hrl.symm)
    | cons r rs =>
      have := (hinv r (by simp)).2.2.2
      simp only [List.map_cons, List.sum_cons] at h0
      omega
  refine ⟨collect qs ⟨0, [], [], []⟩, ?_, hrl, ?_, ?_, ?_, ?_, ?_⟩
  · unfold groupSample
    rw [if_neg (by omega)]
    simp only [← hsz, ← hall, hlist, unpackAll_ok]
    rw [if_neg]
    rw [hc]
    simpa only [hlenS] using hpos
  · rw [hc]; simp only [hbat]
  · intro j m r hm hr
    obtain ⟨n, -, h2⟩ := hat j m r hm hr
    exact (service_inv _ _ _ _ _ _ h2).2.2
  · rw [hc]; exact hlenS
  · rw [hc]
    simp only [hlenS, hbat, ← hlens, List.length_flatten, List.map_map]
    have : ∀ l : List (SampleRes τ), (∀ r ∈ l, r.batch.length = r.len * L) →
        (l.map (List.length ∘ fun r => r.batch)).sum = (l.map (·.len)).sum * L := by
      intro l
      induction l with
      | nil => intro _; simp
      | cons r l ih =>
        intro h
        simp only [List.map_cons, List.sum_cons, Nat.add_mul]
        rw [ih (fun r hr => h r (by simp [hr]))]
        simp only [Function.comp, h r (by simp)]
    exact this rs fun r hr => (hinv r hr).2.2.1
  · intro ps hps
    have hcl : (collect qs ⟨0, [], [], []⟩).len = (rs.map (·.index.length)).sum := by
      rw [hc]
      simp only
      rw [hlenS, ← hlens]
      congr 1
      exact List.map_congr_left fun r hr => (hinv r hr).1
    obtain ⟨pss, h1, h3⟩ := exists_pieces (rs.map (·.index.length)) ps (by omega)
    refine ⟨pss, h1, h3, ?_⟩
    have hci : (collect qs ⟨0, [], [], []⟩).index = qs.map (fun p => (p.1, (p.2.index, p.2.version))) := by rw [hc]
    have := updateCalls_eq (collect qs ⟨0, [], [], []⟩).index ps [] pss (by simp [h1]) (by
      rw [h3, hci, List.map_map, ← hsnd, List.map_map]
      rfl)
    rw [List.length_nil] at this
    rw [this, hci, List.zip_map_left, List.map_map, hqs, List.zip_map_left, List.zip_map_left, List.map_map]
    rfl

theorem all_answers {α : Type} : ∀ l : List (Except Err (Option α)),
    (l.all fun x => match x with | .ok (some _) => true | _ => false) = true → ∃ rs : List α, l = rs.map fun r => .ok (some r) := by
  intro l
  induction l with
  | nil => intro _; exact ⟨[], rfl⟩
  | cons x l ih =>
    intro h
    rw [List.all_cons, Bool.and_eq_true] at h
    obtain ⟨rs, rfl⟩ := ih h.2
    match x, h.1 with
    | .ok (some r), _ => exact ⟨r :: rs, rfl⟩

example : let ms : List (PMember Nat) := [⟨"a", dMember, fun _ => 1 / 2⟩, ⟨"b", dMember, fun _ => 1 / 2⟩]
    ms ≠ [] ∧ (ms.map (·.name)).Nodup ∧
    ∃ rs : List (SampleRes Nat),
      (let weights := ms.map fun m => m.buf.base.tree.weightSum
       (ms.zip (sampleSizes weights 4)).map (fun q =>
        (sampleService dPow 2 q.1.buf ((List.range q.2.toNat).map q.1.draws) (weights.sum + 1 / 1000000)).2) = rs.map fun r => .ok (some r)) :=
  ⟨by simp, by decide, all_answers _ (by decide +kernel)⟩

/-! ### C217 -/

/-- C217, full statement: after a sampling and any number of stores, an update of the priorities of the samples leaves the priorities of the
positions written in between alone. -/
def C217_full : Prop :=
  ∀ (ι τ : Type) (conv : ι → Except Err τ) (norm : ℚ → ℚ) (pw : ℚ → ℚ → ℚ) (L : Nat) (b₀ : DPBuffer τ) (draws : List ℚ) (all : ℚ)
    (r : SampleRes τ) (ep : List ι) (ps : List ℚ) (i : Nat),
    (sampleService pw L b₀ draws all).2 = .ok (some r) → ps.length = r.index.length →
    let st := storeD conv norm L (sampleService pw L b₀ draws all).1 ep none false none
    st.2 = .ok () → i ∈ (st.1.base.buf.eth.get? (st.1.base.buf.counter - 1)).getD [] →
    (st.1.updateService norm ps r.index r.version).1.base.tree.leafWeight [(i : Int)] = st.1.base.tree.leafWeight [(i : Int)]

theorem sampleService_versions {τ : Type} (pw : ℚ → ℚ → ℚ) (L : Nat) (b : DPBuffer τ) (draws : List ℚ) (all : ℚ) :
    (sampleService pw L b draws all).1.versions = b.versions := by
  unfold sampleService
  split
  · rfl
  · split
    · rfl
    · simp only
      split
      · rfl
      · split <;> rfl

theorem versionsAt_service {τ : Type} (pw : ℚ → ℚ → ℚ) (L : Nat) (b : DPBuffer τ) (draws : List ℚ) (all : ℚ) (r : SampleRes τ)
    (h : (sampleService pw L b draws all).2 = .ok (some r)) : versionsAt b.versions r.index = .ok r.version := by
  unfold sampleService at h
  split at h
  · simp at h
  · rcases hs : b.base.sampleIndexAndWeight pw draws (some all) with ⟨base, e | ⟨index, ws⟩⟩
    · simp [hs] at h
    · simp only [hs] at h
      cases hv : versionsAt b.versions index.flat with
      | error e => simp [hv] at h
      | ok version =>
        cases hf : fetchWindows base.buf L index with
        | error e => simp [hv, hf] at h
        | ok batch =>
          simp only [hv, hf, Except.ok.injEq, Option.some.injEq] at h
          subst h
          exact hv

theorem masked_true {α : Type} : ∀ (ms : List Bool) (xs : List α), (∀ m ∈ ms, m = true) → ms.length = xs.length → masked ms xs = xs := by
  intro ms
  induction ms with
  | nil => intro xs _ h; cases xs <;> simp_all [masked]
  | cons m ms ih =>
    intro xs hm h
    cases xs with
    | nil => simp at h
    | cons x xs =>
      have h1 := hm m (by simp)
      subst h1
      simp only [masked, ih xs (fun m hm' => hm m (by simp [hm'])) (by simpa using h)]

/-- The states a member reaches from `b` by stores, samplings and updates of priorities. -/
inductive LaterD {ι τ : Type} (conv : ι → Except Err τ) (norm : ℚ → ℚ) (pw : ℚ → ℚ → ℚ) (L : Nat) (b : DPBuffer τ) : DPBuffer τ → Prop
  | refl : LaterD conv norm pw L b b
  | store {b' : DPBuffer τ} (ep : List ι) (pr : Option (List ℚ)) (nd : Bool) (ra : Option (List String)) : LaterD conv norm pw L b b' →
      LaterD conv norm pw L b (storeD conv norm L b' ep pr nd ra).1
  | sample {b' : DPBuffer τ} (draws : List ℚ) (all : ℚ) : LaterD conv norm pw L b b' → LaterD conv norm pw L b (sampleService pw L b' draws all).1
  | update {b' : DPBuffer τ} (ps : List ℚ) (is vs : List Nat) : LaterD conv norm pw L b b' → LaterD conv norm pw L b (b'.updateService norm ps is vs).1

theorem LaterD.versions {ι τ : Type} {conv : ι → Except Err τ} {norm : ℚ → ℚ} {pw : ℚ → ℚ → ℚ} {L : Nat} {b b' : DPBuffer τ}
    (h : LaterD conv norm pw L b b') : b'.versions = b.versions := by
  induction h with
  | refl => rfl
  | store ep pr nd ra _ ih => exact ih
  | sample draws all _ ih => rw [sampleService_versions, ih]
  | update ps is vs _ ih =>
    unfold DPBuffer.updateService
    split
    · exact ih
    · exact ih

/-- However many episodes have been stored since the sampling, and whatever has been overwritten: the versions still match, and
every sampled position gets its priority, as if there were no versions. -/
theorem C217_versions_never_change {ι τ : Type} (conv : ι → Except Err τ) (norm : ℚ → ℚ) (pw : ℚ → ℚ → ℚ) (L : Nat) (b₀ b : DPBuffer τ)
    (draws : List ℚ) (all : ℚ) (r : SampleRes τ) (hr : (sampleService pw L b₀ draws all).2 = .ok (some r))
    (h : LaterD conv norm pw L (sampleService pw L b₀ draws all).1 b) (ps : List ℚ) (hps : ps.length = r.index.length) :
    b.versions = b₀.versions ∧
    b.updateService norm ps r.index r.version =
      (⟨(b.base.updatePriority norm ps (r.index.map Int.ofNat)).1, b.versions⟩, (b.base.updatePriority norm ps (r.index.map Int.ofNat)).2) := by
  have hv : b.versions = b₀.versions := by rw [h.versions, sampleService_versions]
  refine ⟨hv, ?_⟩
  have hva := versionsAt_service pw L b₀ draws all r hr
  have hvl := (service_inv pw L b₀ draws all r hr)
  have hm : ∀ m ∈ (r.version.zip r.version).map (fun p => p.1 == p.2), m = true := by
    intro m hm
    obtain ⟨p, hp, rfl⟩ := List.mem_map.1 hm
    have : ∀ (l : List Nat) (p : Nat × Nat), p ∈ l.zip l → p.1 = p.2 := by
      intro l
      induction l with
      | nil => intro p hp; simp at hp
      | cons a l ih =>
        intro p hp
        rw [List.zip_cons_cons, List.mem_cons] at hp
        rcases hp with rfl | hp
        · rfl
        · exact ih p hp
    simpa using this _ p hp
  have hlen : ((r.version.zip r.version).map (fun p => p.1 == p.2)).length = r.index.length := by
    simp; omega
  unfold DPBuffer.updateService
  rw [hv, hva]
  simp only
  rw [masked_true _ ps hm (by omega), masked_true _ r.index hm (by omega)]

/-- C217 is violated: the positions of the first episode are sampled, an episode of four steps overwrites them, and the priorities computed from
the old windows are written to the new ones. -/
theorem C217_violated : ¬ C217_full := by
  intro h
  have hr : ∃ r, (sampleService dPow 2 dMember [1 / 2, 1 / 2] (1 / 10)).2 = .ok (some r) ∧ r.index = [0, 1] ∧ r.version = [0, 0] := by
    have : ((sampleService dPow 2 dMember [1 / 2, 1 / 2] (1 / 10)).2.map fun r => r.map fun r => (r.index, r.version)) = .ok (some ([0, 1], [0, 0])) := by
      decide +kernel
    rcases hx : (sampleService dPow 2 dMember [1 / 2, 1 / 2] (1 / 10)).2 with e | (_ | r)
    · rw [hx] at this; simp [Except.map] at this
    · rw [hx] at this; simp [Except.map] at this
    · rw [hx] at this
      simp only [Except.map, Option.map_some, Except.ok.injEq, Option.some.injEq, Prod.mk.injEq] at this
      exact ⟨r, rfl, this.1, this.2⟩
  obtain ⟨r, h1, h2, h3⟩ := hr
  have := h Nat Nat dConv dNorm dPow 2 dMember [1 / 2, 1 / 2] (1 / 10) r [4, 5, 6, 7] [7, 8] 0 h1 (by rw [h2]; rfl) (by decide +kernel) (by decide +kernel)
  rw [h2, h3] at this
  revert this
  decide +kernel

theorem storeD_inv {ι τ : Type} {N T L : Nat} (conv : ι → Except Err τ) (norm : ℚ → ℚ) {b : DPBuffer τ} (h : DInv N T b) (ep : List ι) (h0 : ep ≠ [])
    (hle : ep.length ≤ N) (hv : ∃ ys, ep.mapM conv = .ok ys) (nd : Bool) :
    DInv N (T + ep.length) (storeD conv norm L b ep none nd none).1 ∧ (storeD conv norm L b ep none nd none).2 = .ok () := by
  obtain ⟨ys, hc⟩ := hv
  obtain ⟨flat, hfl, hst⟩ := h.store
  have hlen := mapM_length conv ep ys hc
  have hpos := hst.pos
  obtain ⟨b', g1, g2, g3, g4, g5, -⟩ := storeEpisode_map conv hst h.maps ep ys h0 hc hle
  have g5' : b'.eth.get? (b'.counter - 1) = some (slots N flat.length ys.length) := by rw [g4]; exact g5
  have hin : ∀ i ∈ slots N flat.length ys.length, i < b.base.tree.size := by
    intro i hi
    obtain ⟨k, _, _, rfl⟩ := mem_slots.1 hi
    rw [h.size]; exact Nat.mod_lt _ hpos
  obtain ⟨t2, b1, b2, b3, -, b5⟩ := updateLeafBatch_spec h.tree
    (List.replicate (slots N flat.length ys.length).length (norm b.base.tree.leafMax)) (slots N flat.length ys.length) (by simp) hin
  obtain ⟨t3, c1, c2, c3, -, c5⟩ := updateLeafBatch_spec b2
    ((List.range ep.length).map fun i => if i + L ≤ ep.length then norm t2.leafMax else 0) (slots N flat.length ys.length) (by simp; omega)
    (by rw [b3]; exact hin)
  have e : storeD conv norm L b ep none nd none = (⟨{ b.base with buf := b', tree := t3 }, b.versions⟩, .ok ()) := by
    simp only [storeD, storeEpisodeD, PBuffer.storeEpisode, g1, g5', b1, storePriorities, c1]
  rw [e]
  exact ⟨⟨⟨flat ++ ys, by simp; omega, g2⟩, g3, c2, by rw [c3, b3]; exact h.size, h.vlen⟩, rfl⟩

/-- C217, what does hold: the update itself is right for all positions that have not been overwritten: after a sampling and any number of stores, samplings and
updates, every sampled position gets the last priority sent for it, and all positions that were not sampled keep theirs. Missing: that positions
written in between keep theirs, too. -/
theorem C217_update_partial {ι τ : Type} {N T : Nat} (conv : ι → Except Err τ) (norm : ℚ → ℚ) (pw : ℚ → ℚ → ℚ) (L : Nat) (b₀ b : DPBuffer τ)
    (draws : List ℚ) (all : ℚ) (r : SampleRes τ) (hr : (sampleService pw L b₀ draws all).2 = .ok (some r))
    (hb : LaterD conv norm pw L (sampleService pw L b₀ draws all).1 b) (hD : DInv N T b) (ps : List ℚ) (hps : ps.length = r.index.length) :
    let res := b.updateService norm ps r.index r.version
    res.2 = .ok () ∧
    (∀ i, i < N → i ∉ r.index → res.1.base.tree.leafWeight [(i : Int)] = b.base.tree.leafWeight [(i : Int)]) ∧
    (∀ (j i : Nat) (p : ℚ), r.index[j]? = some i → ps[j]? = some p → (∀ j', j < j' → r.index[j']? ≠ some i) →
      res.1.base.tree.leafWeight [(i : Int)] = .ok (.scalar (norm p))) := by
  intro res
  obtain ⟨hv, hup⟩ := C217_versions_never_change conv norm pw L b₀ b draws all r hr hb ps hps
  obtain ⟨-, hidx⟩ := versionsAt_inv r.index r.version (versionsAt_service pw L b₀ draws all r hr)
  have hin : ∀ i ∈ r.index, i < N := by
    intro i hi
    rw [← hD.vlen, hv]; exact hidx i hi
  obtain ⟨t', k1, k2, k3, -, k4⟩ := updateLeafBatch_spec hD.tree (ps.map norm) r.index (by simpa using hps) (by rw [hD.size]; exact hin)
  have hres : res = (⟨{ b.base with tree := t' }, b.versions⟩, .ok ()) := by
    show b.updateService norm ps r.index r.version = _
    rw [hup]
    simp only [PBuffer.updatePriority, k1]
  have hleaf : ∀ (t : WeightTree), TInv t → ∀ i, i < t.size → t.leafWeight [(i : Int)] = .ok (.scalar (t.weights.getD i 0)) := by
    intro t ht i hit
    exact leafWeight_ok ht [i] (by intro j hj; have : j = i := by simpa using hj
                                   omega)
  have hz : r.index.zip (ps.map norm) = (r.index.zip ps).map fun p => (p.1, norm p.2) := by
    rw [List.zip_map_right]; rfl
  rw [hres]
  refine ⟨rfl, ?_, ?_⟩
  · intro i hi hni
    simp only
    rw [hleaf _ k2 i (by rw [k3, hD.size]; exact hi), hleaf _ hD.tree i (by rw [hD.size]; exact hi), k4 i (by rw [hD.size]; exact hi), hz,
      foldl_not_mem _ _ _ _ (by rw [List.map_fst_zip (by omega)]; exact hni)]
  · intro j i p hj hjp hlast
    have hi := hin i (List.mem_of_getElem? hj)
    simp only
    rw [hleaf _ k2 i (by rw [k3, hD.size]; exact hi), k4 i (by rw [hD.size]; exact hi), hz, foldl_last norm i _ _ _ j p hj hjp hlast hps]

example : DInv 4 3 dMember ∧ DInv 4 7 (storeD dConv dNorm 2 dMember [4, 5, 6, 7] none false none).1 ∧
    ∃ r, (sampleService dPow 2 dMember [1 / 2, 1 / 2] (1 / 10)).2 = .ok (some r) := by
  have h1 := storeD_inv (L := 2) dConv dNorm (DInv.new Nat (by decide) (2 / 5) (1 / 1000) : DInv 4 0 dEmpty) [1, 2, 3] (by simp) (by decide) ⟨[1, 2, 3], rfl⟩ false
  have h2 := storeD_inv (L := 2) dConv dNorm h1.1 [4, 5, 6, 7] (by simp) (by decide) ⟨[4, 5, 6, 7], rfl⟩ false
  refine ⟨h1.1, h2.1, ?_⟩
  obtain ⟨rs, hrs⟩ := all_answers [(sampleService dPow 2 dMember [1 / 2, 1 / 2] (1 / 10)).2] (by decide +kernel)
  cases rs with
  | nil => simp at hrs
  | cons r rs => exact ⟨r, (List.cons.inj hrs).1⟩

end Machin.Rnn
