import Verif.Dist.Props

/-!
# C88-C90: where priorities are written, and importance weights of distributed batches

C88: `store_episode` with one priority per transition (or none) writes the normalized priority of every transition to the leaf of the
position of this transition and to no other leaf; `update_priority` writes the normalized (last) priority of every index and nothing else.

C89: the importance weights of a distributed batch lie in `(0, 1]`, and an entry with a larger priority never gets a larger weight, whatever
member it comes from. **The code violates it**: every member divides by its own maximum and uses its own number of stored transitions.

C90: a `store_episode` that raises because of the number of priorities leaves the buffer as it was. **The code violates it**: the episode
is stored first.
-/

namespace Machin.Dist

open Replay Prio

/-- `get_leaf_weight(i)` of one index. -/
abbrev leafAt (t : WeightTree) (i : Nat) (w : ℚ) : Prop := t.leafWeight [(i : Int)] = .ok (.scalar w)

theorem leafAt_iff {t : WeightTree} (h : TInv t) (i : Nat) (hi : i < t.size) (w : ℚ) : leafAt t i w ↔ t.weights.getD i 0 = w := by
  have := leafWeight_ok h [i] (by simpa using hi)
  unfold leafAt
  rw [show [(i : Int)] = [i].map Int.ofNat from rfl, this]
  simp [shape]

theorem foldl_zip_nodup (i : Nat) : ∀ (is : List Nat) (ws : List ℚ) (x : ℚ) (j : Nat) (w : ℚ), is.Nodup → is[j]? = some i →
    ws[j]? = some w → (is.zip ws).foldl (fun x p => if p.1 = i then p.2 else x) x = w := by
  intro is
  induction is with
  | nil => intro ws x j w _ h; simp at h
  | cons a is ih =>
    intro ws x j w hnd h1 h2
    cases ws with
    | nil => simp at h2
    | cons v ws =>
      rw [List.nodup_cons] at hnd
      cases j with
      | zero =>
        simp only [List.getElem?_cons_zero, Option.some.injEq] at h1 h2
        subst h1 h2
        rw [List.zip_cons_cons, List.foldl_cons, if_pos rfl]
        apply foldl_last_of_not_mem
        intro hm
        obtain ⟨p, hp, e⟩ := List.mem_map.1 hm
        rw [← e] at hnd
        exact hnd.1 (List.of_mem_zip hp).1
      | succ j =>
        rw [List.getElem?_cons_succ] at h1 h2
        rw [List.zip_cons_cons, List.foldl_cons]
        exact ih ws _ j w hnd.2 h1 h2

/-- **C88** (storing): after an accepted store into a reachable buffer, the handles of the new episode are distinct, hold its transitions in
order, and the leaf of the position of transition `j` holds the normalized priority `j` (the normalized largest leaf so far if no priorities
are given); all other leaves are as before. -/
theorem C88_store_writes_priorities {ι τ : Type} (conv : ι → Except Err τ) (norm : ℚ → ℚ) (pw : ℚ → ℚ → ℚ) (N : Nat) (beta inc : ℚ)
    (hN : 1 ≤ N) (hnorm : ∀ p, 0 < norm p) {k : Nat} {b : PBuffer τ} (hr : Reach conv norm pw N beta inc k b) (ep : List ι) (ys : List τ)
    (hne : ep ≠ []) (hc : ep.mapM conv = .ok ys) (hle : ep.length ≤ N) (pr : Option (List ℚ))
    (hpr : ∀ ps, pr = some ps → ps.length = ep.length) :
    (b.storeEpisode conv norm ep pr).2 = .ok () ∧
      ∃ hs, (b.storeEpisode conv norm ep pr).1.buf.eth.get? b.buf.counter = some hs ∧ hs.Nodup ∧
        (b.storeEpisode conv norm ep pr).1.buf.fetch hs = .ok ys ∧
        (∀ (j h : Nat), hs[j]? = some h → ∀ p : ℚ, (match pr with | none => some b.tree.leafMax | some ps => ps[j]?) = some p →
          leafAt (b.storeEpisode conv norm ep pr).1.tree h (norm p)) ∧
        ∀ i w, i < N → i ∉ hs → (leafAt (b.storeEpisode conv norm ep pr).1.tree i w ↔ leafAt b.tree i w) := by
  have h := (hr.inv hN hnorm).1
  obtain ⟨flat, hs⟩ := h.store
  have hlen := mapM_length conv ep ys hc
  obtain ⟨b', g1, g2, g3, g4, g5, -⟩ := storeEpisode_map conv hs h.maps ep ys hne hc hle
  have g5' : b'.eth.get? (b'.counter - 1) = some (slots N flat.length ys.length) := by rw [g4]; exact g5
  have hnd : (slots N flat.length ys.length).Nodup := slots_nodup (by omega)
  have hin : ∀ i ∈ slots N flat.length ys.length, i < b.tree.size := by
    intro i hi
    obtain ⟨k, _, _, rfl⟩ := mem_slots.1 hi
    rw [h.size]; exact Nat.mod_lt _ hs.pos
  have hfetch : b'.fetch (slots N flat.length ys.length) = .ok ys := by
    apply fetch_eq
    apply List.ext_getElem?
    intro j
    rw [List.getElem?_map, List.getElem?_map]
    by_cases hj : j < ys.length
    · have e : (slots N flat.length ys.length)[j]? = some ((flat.length + j) % N) := by
        simp [slots, List.getElem?_map, List.getElem?_range', hj]
      rw [e, Option.map_some, g2.get (flat.length + j) (by rw [List.length_append]; omega) (by rw [List.length_append]; omega),
        List.getElem?_append_right (by omega), Nat.add_sub_cancel_left, List.getElem?_eq_getElem hj]
      rfl
    · rw [List.getElem?_eq_none (by simp; omega), List.getElem?_eq_none (by omega)]
      rfl
  set ws : List ℚ := (match pr with
    | none => List.replicate (slots N flat.length ys.length).length (norm b.tree.leafMax)
    | some ps => ps.map norm) with hws
  have hwl : ws.length = (slots N flat.length ys.length).length := by
    cases pr with
    | none => simp [hws]
    | some ps => have := hpr ps rfl; simp [hws]; omega
  obtain ⟨t', k1, k2, k3, -, k5⟩ := updateLeafBatch_spec h.tree ws _ hwl hin
  have e1 : b.storeEpisode conv norm ep pr = ({ b with buf := b', tree := t' }, .ok ()) := by
    cases pr with
    | none =>
      simp only [hws] at k1
      simp only [PBuffer.storeEpisode, g1, g5', k1]
    | some ps =>
      simp only [hws] at k1
      simp only [PBuffer.storeEpisode, g1, g5', k1]
  rw [e1]
  refine ⟨rfl, _, g5, hnd, hfetch, ?_, ?_⟩
  · intro j i hj p hp
    have hi := hin i (List.mem_of_getElem? hj)
    show leafAt t' i _
    rw [leafAt_iff k2 i (by omega), k5 i hi]
    apply foldl_zip_nodup i _ _ _ j _ hnd hj
    cases pr with
    | none =>
      simp only [Option.some.injEq] at hp
      subst hp
      have : j < (slots N flat.length ys.length).length := (List.getElem?_eq_some_iff.1 hj).1
      simp only [hws]
      rw [List.getElem?_replicate, if_pos this]
    | some ps =>
      simp only at hp
      simp only [hws, List.getElem?_map, hp, Option.map_some]
  · intro i w hi hni
    show leafAt t' i w ↔ _
    have hi' : i < b.tree.size := by rw [h.size]; exact hi
    rw [leafAt_iff k2 i (by omega), leafAt_iff h.tree i hi', k5 i hi', foldl_last_of_not_mem]
    intro hm
    obtain ⟨p, hp, e⟩ := List.mem_map.1 hm
    exact hni (e ▸ (List.of_mem_zip hp).1)

/-- **C88** (updating): `update_priority` with one priority per index of a stored transition writes the normalized last priority given for
an index to its leaf and changes no other leaf; transitions and tables are untouched. -/
theorem C88_update_writes_priorities {ι τ : Type} (conv : ι → Except Err τ) (norm : ℚ → ℚ) (pw : ℚ → ℚ → ℚ) (N : Nat) (beta inc : ℚ)
    (hN : 1 ≤ N) (hnorm : ∀ p, 0 < norm p) {k : Nat} {b : PBuffer τ} (hr : Reach conv norm pw N beta inc k b) (ps : List ℚ) (is : List Nat)
    (hlen : ps.length = is.length) (hin : ∀ i ∈ is, i < N) :
    let r := b.updatePriority norm ps (is.map Int.ofNat)
    r.2 = .ok () ∧ r.1.buf = b.buf ∧
      (∀ (j i : Nat) (p : ℚ), is[j]? = some i → ps[j]? = some p → (∀ j' : Nat, j < j' → is[j']? ≠ some i) → leafAt r.1.tree i (norm p)) ∧
      ∀ i w, i < N → i ∉ is → (leafAt r.1.tree i w ↔ leafAt b.tree i w) := by
  have h := (hr.inv hN hnorm).1
  obtain ⟨t', k1, k2, k3, -, k5⟩ := updateLeafBatch_spec h.tree (ps.map norm) is (by simp [hlen])
    (fun i hi => by rw [h.size]; exact hin i hi)
  have e1 : b.updatePriority norm ps (is.map Int.ofNat) = ({ b with tree := t' }, .ok ()) := by
    simp only [PBuffer.updatePriority, k1]
  intro r
  have e2 : r = ({ b with tree := t' }, .ok ()) := e1
  rw [e2]
  have hz : is.zip (ps.map norm) = (is.zip ps).map (fun p => (p.1, norm p.2)) := by
    rw [List.zip_map_right]; rfl
  refine ⟨rfl, rfl, ?_, ?_⟩
  · intro j i p hj hp hl
    have hi := hin i (List.mem_of_getElem? hj)
    show leafAt t' i _
    rw [leafAt_iff k2 i (by rw [k3, h.size]; exact hi), k5 i (by rw [h.size]; exact hi), hz]
    exact foldl_last norm i is ps _ j p hj hp hl hlen
  · intro i w hi hni
    have hi' : i < b.tree.size := by rw [h.size]; exact hi
    show leafAt t' i w ↔ _
    rw [leafAt_iff k2 i (by omega), leafAt_iff h.tree i hi', k5 i hi', hz, foldl_not_mem norm i _ _]
    intro hm
    obtain ⟨p, hp, e⟩ := List.mem_map.1 hm
    exact hni (e ▸ (List.of_mem_zip hp).1)

/-- Non-vacuity: a concrete store and a concrete update with a repeated index. -/
example :
    let b := ((PBuffer.new Nat 4 (2 / 5) (1 / 1000)).storeEpisode Prio.exConv exNorm [1, 2, 3] (some [5, 6, 7])).1
    (b.tree.allLeaves = [501 / 100, 601 / 100, 701 / 100, 0]) ∧
      (b.updatePriority exNorm [1, 2, 3] [0, 1, 0]).1.tree.allLeaves = [301 / 100, 201 / 100, 701 / 100, 0] := by
  decide +kernel

/-! ### C90 -/

/-- C90 in full. -/
def C90_full : Prop :=
  ∀ (N : Nat) (ep : List Nat) (ps : List ℚ) (k : Nat) (b : PBuffer Nat), 1 ≤ N → Reach Prio.exConv exNorm exPow N 1 0 k b →
    ps.length ≠ ep.length → ep.length ≤ N → (∃ e, (b.storeEpisode Prio.exConv exNorm ep (some ps)).2 = .error e) ∧
      (b.storeEpisode Prio.exConv exNorm ep (some ps)).1.buf.sampleAll = b.buf.sampleAll

/-- **C90 is violated**: the transitions are stored and can be sampled, although the call raises. -/
theorem C90_violated : ¬ C90_full := by
  intro h
  have := (h 2 [1, 2] [1] 0 _ (by decide) Reach.new (by decide) (by decide)).2
  revert this
  decide +kernel

/-- **C90, partial**: a wrong number of priorities always raises, and no priority is written: the leaves are those of before (so the new
transitions carry the priorities of the ones they have replaced, 0 in a fresh buffer). Missing: the buffer is unchanged. -/
theorem C90_wrong_number_raises_partial {ι τ : Type} (conv : ι → Except Err τ) (norm : ℚ → ℚ) (pw : ℚ → ℚ → ℚ) (N : Nat) (beta inc : ℚ)
    (hN : 1 ≤ N) (hnorm : ∀ p, 0 < norm p) {k : Nat} {b : PBuffer τ} (hr : Reach conv norm pw N beta inc k b) (ep : List ι)
    (hle : ep.length ≤ N) (ps : List ℚ) (hps : ps.length ≠ ep.length) :
    (∃ e, (b.storeEpisode conv norm ep (some ps)).2 = .error e) ∧ (b.storeEpisode conv norm ep (some ps)).1.tree = b.tree := by
  have h := (hr.inv hN hnorm).1
  obtain ⟨flat, hs⟩ := h.store
  by_cases h0 : ep = []
  · subst h0
    exact ⟨⟨_, rfl⟩, rfl⟩
  · cases hc : ep.mapM conv with
    | error e =>
      have e1 : b.storeEpisode conv norm ep (some ps) = ({ b with buf := { b.buf with counter := b.buf.counter + 1 } }, .error e) := by
        simp only [PBuffer.storeEpisode, storeEpisode_reject conv b.buf ep e h0 hc]
      rw [e1]
      exact ⟨⟨_, rfl⟩, rfl⟩
    | ok ys =>
      have hlen := mapM_length conv ep ys hc
      obtain ⟨b', g1, g2, g3, g4, g5, -⟩ := storeEpisode_map conv hs h.maps ep ys h0 hc hle
      have g5' : b'.eth.get? (b'.counter - 1) = some (slots N flat.length ys.length) := by rw [g4]; exact g5
      have k1 : b.tree.updateLeafBatch (ps.map norm) ((slots N flat.length ys.length).map Int.ofNat) = (b.tree, .error .value) := by
        unfold WeightTree.updateLeafBatch
        rw [if_pos]
        simp only [List.length_map, length_slots]
        omega
      have e1 : b.storeEpisode conv norm ep (some ps) = ({ b with buf := b', tree := b.tree }, .error .value) := by
        simp only [PBuffer.storeEpisode, g1, g5', k1]
      rw [e1]
      exact ⟨⟨_, rfl⟩, rfl⟩

/-- Non-vacuity. -/
example : Reach Prio.exConv exNorm exPow 2 1 0 0 (PBuffer.new Nat 2 1 0) ∧ [(1 : ℚ)].length ≠ [1, 2].length := ⟨Reach.new, by decide⟩

/-! ### C89 -/

/-- C89 in full, for a batch collected from two members that both know the same total weight. -/
def C89_full : Prop :=
  ∀ (N : Nat) (k₁ k₂ : Nat) (b₁ b₂ : PBuffer Nat) (vs₁ vs₂ : List Nat) (draws₁ draws₂ : List ℚ) (r₁ r₂ : SampleRes Nat),
    1 ≤ N → Reach Prio.exConv exNorm exPow N 1 0 k₁ b₁ → Reach Prio.exConv exNorm exPow N 1 0 k₂ b₂ →
    let all := b₁.tree.weightSum + b₂.tree.weightSum
    (DPBuffer.sampleService exPow ⟨b₁, vs₁⟩ draws₁ all).2 = .ok r₁ → (DPBuffer.sampleService exPow ⟨b₂, vs₂⟩ draws₂ all).2 = .ok r₂ →
    (∀ w ∈ r₁.isWeight ++ r₂.isWeight, 0 < w ∧ w ≤ 1) ∧
      ∀ (i j m n : Nat) (p q v w : ℚ), r₁.index[i]? = some m → r₂.index[j]? = some n → leafAt b₁.tree m p → leafAt b₂.tree n q →
        r₁.isWeight[i]? = some v → r₂.isWeight[j]? = some w → p ≤ q → w ≤ v

/-- The first member of the witness: priorities 1 and 3 (plus `epsilon`). -/
abbrev exLow : PBuffer Nat := ((PBuffer.new Nat 4 1 0).storeEpisode Prio.exConv exNorm [1, 2] (some [1, 3])).1
/-- The second member: priorities 5 and 5. -/
abbrev exHigh : PBuffer Nat := ((PBuffer.new Nat 4 1 0).storeEpisode Prio.exConv exNorm [3, 4] (some [5, 5])).1

theorem exLow_sample : (DPBuffer.sampleService exPow ⟨exLow, [1, 1, 0, 0]⟩ [1 / 2, 1 / 2] (exLow.tree.weightSum + exHigh.tree.weightSum)).2 =
    .ok ⟨2, [1, 2], [0, 1], [1, 1], [1, 101 / 301]⟩ := by decide +kernel

theorem exHigh_sample : (DPBuffer.sampleService exPow ⟨exHigh, [1, 1, 0, 0]⟩ [1 / 2, 1 / 2] (exLow.tree.weightSum + exHigh.tree.weightSum)).2 =
    .ok ⟨2, [3, 4], [0, 1], [1, 1], [1, 1]⟩ := by decide +kernel

/-- **C89 is violated**: of two members with equally many transitions, an entry with priority 3.01 gets weight 101/301, one with priority 5.01
in the other member gets weight 1. -/
theorem C89_violated : ¬ C89_full := by
  intro h
  have h1 : Reach Prio.exConv exNorm exPow 4 1 0 0 exLow := Reach.store [1, 2] (some [1, 3]) Reach.new (by decide) (by simp)
  have h2 : Reach Prio.exConv exNorm exPow 4 1 0 0 exHigh := Reach.store [3, 4] (some [5, 5]) Reach.new (by decide) (by simp)
  have := (h 4 0 0 exLow exHigh [1, 1, 0, 0] [1, 1, 0, 0] _ _ _ _ (by decide) h1 h2 exLow_sample exHigh_sample).2 1 0 1 0 (301 / 100)
    (501 / 100) (101 / 301) 1 rfl rfl (by decide +kernel) (by decide +kernel) rfl rfl (by norm_num)
  norm_num at this

/-- **C89, partial**: the weights of the entries of one member. For a positive total (as `sample_batch` sends it) they are
`(n * p / total) ** -beta` divided by the largest such value among the entries *of this member*, `n` being the number of transitions *of this
member*. Missing: the same number `n` and the same divisor for all members. -/
theorem C89_local_formula_partial {ι τ : Type} (conv : ι → Except Err τ) (norm : ℚ → ℚ) (pw : ℚ → ℚ → ℚ) (N : Nat) (beta inc : ℚ)
    (hN : 1 ≤ N) (hnorm : ∀ p, 0 < norm p) {k : Nat} {b : PBuffer τ} (hr : Reach conv norm pw N beta inc k b) (vs : List Nat)
    (draws : List ℚ) (total : ℚ) (ht : 0 < total) (r : SampleRes τ) (hs : (DPBuffer.sampleService pw ⟨b, vs⟩ draws total).2 = .ok r)
    (hlen : r.len ≠ 0) :
    ∃ raw : List ℚ, r.isWeight = raw.map (· / npMax raw) ∧ raw.length = r.index.length ∧
      ∀ (i m : Nat) (p : ℚ), r.index[i]? = some m → leafAt b.tree m p →
        raw[i]? = some (pw (b.buf.size * (p / total)) (-b.currBeta)) := by
  have h := (hr.inv hN hnorm).1
  have hidx := sampleIndex_ok pw h draws (some total)
  simp only at hidx
  unfold DPBuffer.sampleService at hs
  split at hs
  · simp only [Except.ok.injEq] at hs
    subst hs
    exact absurd rfl hlen
  · rw [hidx] at hs
    simp only at hs
    set is := (queries b.tree.weightSum draws).map (pick b.tree) with his
    have hq := queries_bounds h.sum_nonneg draws
    have hne : 0 < b.buf.size := by rename_i hc; exact Nat.pos_of_ne_zero fun h0 => hc (Or.inr h0)
    have hst : ∀ i ∈ is, i < b.tree.size := by
      intro i hi
      obtain ⟨q, hq', rfl⟩ := List.mem_map.1 hi
      have := (pick_stored h hne (hq q hq').1 (hq q hq').2).1
      have := h.size_le
      rw [h.size]; omega
    have hos : orSum (some total) b.tree.weightSum = total := by
      simp [orSum, ne_of_gt ht]
    rw [hos] at hs
    split at hs
    · cases hs
    · split at hs
      · cases hs
      · simp only [Except.ok.injEq] at hs
        subst hs
        simp only [flat_shape]
        refine ⟨(is.map fun i => b.tree.weights.getD i 0).map fun p => pw (b.buf.storage.len * (p / total)) (-b.currBeta), rfl, by simp, ?_⟩
        intro i m p hm hp
        rw [leafAt_iff h.tree m (hst m (List.mem_of_getElem? hm))] at hp
        rw [List.getElem?_map, List.getElem?_map, hm]
        simp only [Option.map_some, hp]
        rfl

/-- Non-vacuity. -/
example : 0 < exLow.tree.weightSum + exHigh.tree.weightSum := by decide +kernel

end Machin.Dist
