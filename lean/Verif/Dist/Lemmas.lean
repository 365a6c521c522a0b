import Verif.Dist.History
import Verif.Prio.Lemmas

/-! # Helper lemmas for the distributed buffers -/

namespace Machin.Dist

open Replay Prio

theorem written_eq (N T len : Nat) : Spec.written N T len = slots N T len := by
  simp only [Spec.written, slots, List.range'_eq_map_range, List.map_map]
  rfl

/-- Invariant of a member buffer in which `T` transitions have been stored since creation or the last clear. -/
structure DInv {τ : Type} (N T : Nat) (b : DPBuffer τ) : Prop where
  store : ∃ flat, flat.length = T ∧ SInv N flat b.base.buf.storage
  maps : MapInv b.base.buf
  tree : TInv b.base.tree
  size : b.base.tree.size = N
  vlen : b.versions.length = N

theorem DInv.new (τ : Type) {N : Nat} (hN : 1 ≤ N) (beta inc : ℚ) : DInv N 0 (DPBuffer.new τ N beta inc) :=
  ⟨⟨[], rfl, SInv.new τ hN⟩, MapInv.new τ N, TInv.new hN, rfl, by simp [DPBuffer.new]⟩

theorem markLoop_ok (norm : ℚ → ℚ) {N : Nat} (h2 : 2 ≤ N) : ∀ (todo : List (Option ℚ × Nat)) (t : WeightTree)
    (vs : List Nat), TInv t → t.size = N → vs.length = N → (∀ p ∈ todo, p.2 < N) →
    ∃ t' vs', markLoop norm todo t vs = (t', vs', .ok ()) ∧ TInv t' ∧ t'.size = N ∧ vs'.length = N ∧
      (∀ i, vs'.getD i 0 = vs.getD i 0 + (todo.map (·.2)).count i) ∧
      ∀ i, i < N → i ∉ todo.map (·.2) → t'.weights.getD i 0 = t.weights.getD i 0 := by
  intro todo
  induction todo with
  | nil => intro t vs h1 h2 h3 _; exact ⟨t, vs, rfl, h1, h2, h3, by simp, fun _ _ _ => rfl⟩
  | cons p todo ih =>
    obtain ⟨p, pos⟩ := p
    intro t vs ht hs hv hin
    have hpos : pos < N := hin (p, pos) (by simp)
    obtain ⟨t1, a1, a2, a3, -, a4⟩ := updateLeaf_spec ht (by omega) (norm (p.getD t.leafMax)) pos (by omega)
    obtain ⟨t', vs', b1, b2, b3, b4, b5, b6⟩ := ih t1 (vs.set pos (vs[pos]'(by omega) + 1)) a2 (by omega) (by simpa using hv)
      (fun q hq => hin q (by simp [hq]))
    refine ⟨t', vs', ?_, b2, b3, b4, ?_, ?_⟩
    · simp only [markLoop, a1, List.getElem?_eq_getElem (show pos < vs.length by omega), b1]
    · intro i
      rw [b5 i, List.map_cons, List.count_cons]
      simp only [List.getD_eq_getElem?_getD, List.getElem?_set]
      by_cases e : pos = i
      · subst e
        simp [show pos < vs.length by omega]
        omega
      · simp [e]
    · intro i hi hni
      simp only [List.map_cons, List.mem_cons, not_or] at hni
      rw [b6 i hi hni.2, a4 i (by omega), if_neg hni.1]

theorem storeD_ok {ι τ : Type} {N T : Nat} (h2 : 2 ≤ N) (conv : ι → Except Err τ) (norm : ℚ → ℚ) {b : DPBuffer τ}
    (h : DInv N T b) (ep : List ι) (pr : Option (List ℚ)) (hle : ep.length ≤ N)
    (hpr : ∀ ps, pr = some ps → ps.length = ep.length) :
    DInv N (T + (Prio.Spec.accepted conv ep).length) (b.storeEpisode conv norm ep pr).1 ∧
    ∀ i, (b.storeEpisode conv norm ep pr).1.versions.getD i 0 =
      b.versions.getD i 0 + (slots N T (Prio.Spec.accepted conv ep).length).count i := by
  obtain ⟨flat, hfl, hs⟩ := h.store
  by_cases h0 : ep = []
  · subst h0
    have e1 : b.storeEpisode conv norm [] pr = (b, .error .value) := rfl
    have e2 : Prio.Spec.accepted conv [] = [] := rfl
    rw [e1, e2]
    exact ⟨h, fun i => by simp [slots]⟩
  · cases hc : ep.mapM conv with
    | error e =>
      have e1 : b.storeEpisode conv norm ep pr =
          ({ b with base := { b.base with buf := { b.base.buf with counter := b.base.buf.counter + 1 } } }, .error e) := by
        simp only [DPBuffer.storeEpisode, storeEpisode_reject conv b.base.buf ep e h0 hc]
      have e2 : Prio.Spec.accepted conv ep = [] := by simp only [Prio.Spec.accepted, hc]
      rw [e1, e2]
      exact ⟨⟨h.store, h.maps.counter, h.tree, h.size, h.vlen⟩, fun i => by simp [slots]⟩
    | ok ys =>
      have hlen := mapM_length conv ep ys hc
      have e2 : Prio.Spec.accepted conv ep = ys := by simp only [Prio.Spec.accepted, hc]
      rw [e2]
      obtain ⟨b', g1, g2, g3, g4, g5, -⟩ := storeEpisode_map conv hs h.maps ep ys h0 hc hle
      have g5' : b'.eth.get? (b'.counter - 1) = some (slots N flat.length ys.length) := by rw [g4]; exact g5
      set todo : List (Option ℚ × Nat) := (match pr with
        | none => (slots N flat.length ys.length).map fun p => (none, p)
        | some ps => (ps.map some).zip (slots N flat.length ys.length)) with htodo
      have hsnd : todo.map (·.2) = slots N flat.length ys.length := by
        cases pr with
        | none => simp [htodo, Function.comp_def]
        | some ps =>
          have := hpr ps rfl
          simp only [htodo]
          rw [List.map_snd_zip]
          simp; omega
      have hin : ∀ p ∈ todo, p.2 < N := by
        intro p hp
        have : p.2 ∈ slots N flat.length ys.length := by rw [← hsnd]; exact List.mem_map.2 ⟨p, hp, rfl⟩
        obtain ⟨k, _, _, e⟩ := mem_slots.1 this
        rw [← e]; exact Nat.mod_lt _ hs.pos
      obtain ⟨t', vs', k1, k2, k3, k4, k5, -⟩ := markLoop_ok norm h2 todo b.base.tree b.versions h.tree h.size h.vlen hin
      have e1 : b.storeEpisode conv norm ep pr = (⟨{ b.base with buf := b', tree := t' }, vs'⟩, .ok ()) := by
        cases pr with
        | none => simp only [htodo] at k1; simp only [DPBuffer.storeEpisode, g1, g5', k1]
        | some ps => simp only [htodo] at k1; simp only [DPBuffer.storeEpisode, g1, g5', k1]
      rw [e1]
      refine ⟨⟨⟨_, by rw [List.length_append, hfl], g2⟩, g3, k2, k3, k4⟩, ?_⟩
      intro i
      rw [← hfl, ← hsnd]
      exact k5 i

/-- Sampling changes nothing but the annealed exponent. -/
theorem sampleService_state {τ : Type} (pw : ℚ → ℚ → ℚ) (b : DPBuffer τ) (draws : List ℚ) (all : ℚ) :
    ∃ c, (b.sampleService pw draws all).1 = { b with base := { b.base with currBeta := c } } := by
  have hsi : ∃ c, (b.base.sampleIndexAndWeight pw draws (some all)).1 = { b.base with currBeta := c } := by
    unfold PBuffer.sampleIndexAndWeight
    split
    · exact ⟨b.base.currBeta, rfl⟩
    · split
      · exact ⟨b.base.currBeta, rfl⟩
      · exact ⟨_, rfl⟩
  unfold DPBuffer.sampleService
  split
  · exact ⟨b.base.currBeta, rfl⟩
  · obtain ⟨c, hc⟩ := hsi
    split
    · rename_i h; rw [h] at hc; exact ⟨c, by rw [← hc]⟩
    · rename_i h
      rw [h] at hc
      simp only at hc ⊢
      subst hc
      split
      · exact ⟨c, rfl⟩
      · split
        · exact ⟨c, rfl⟩
        · exact ⟨c, rfl⟩

theorem versionsAt_ok {vs : List Nat} (is : List Nat) (h : ∀ i ∈ is, i < vs.length) :
    versionsAt vs is = .ok (is.map fun i => vs.getD i 0) := by
  induction is with
  | nil => rfl
  | cons i is ih =>
    have hi := h i (by simp)
    simp only [versionsAt, List.getElem?_eq_getElem hi, ih (fun j hj => h j (by simp [hj])), List.map_cons]
    rw [List.getD_eq_getElem?_getD, List.getElem?_eq_getElem hi]
    rfl

theorem versionsAt_inv {vs : List Nat} : ∀ (is l : List Nat), versionsAt vs is = .ok l →
    l = is.map (fun i => vs.getD i 0) ∧ ∀ i ∈ is, i < vs.length := by
  intro is
  induction is with
  | nil => intro l h; cases h; exact ⟨rfl, by simp⟩
  | cons i is ih =>
    intro l h
    simp only [versionsAt] at h
    cases hi : vs[i]? with
    | none => rw [hi] at h; cases h
    | some v =>
      rw [hi] at h
      simp only at h
      cases hv : versionsAt vs is with
      | error e => rw [hv] at h; cases h
      | ok l' =>
        rw [hv] at h
        cases h
        obtain ⟨h1, h2⟩ := ih l' hv
        have hlt : i < vs.length := by
          rw [List.getElem?_eq_some_iff] at hi; exact hi.1
        refine ⟨by simp [h1, List.getD_eq_getElem?_getD, hi], ?_⟩
        intro j hj
        rcases List.mem_cons.1 hj with rfl | hj
        · exact hlt
        · exact h2 j hj

theorem masked_length {α β : Type} : ∀ (ms : List Bool) (xs : List α) (ys : List β), xs.length = ys.length →
    (masked ms xs).length = (masked ms ys).length := by
  intro ms
  induction ms with
  | nil => intro xs ys _; simp [masked]
  | cons m ms ih =>
    intro xs ys h
    cases xs with
    | nil =>
      cases ys with
      | nil => cases m <;> simp [masked]
      | cons y ys => simp at h
    | cons x xs =>
      cases ys with
      | nil => simp at h
      | cons y ys =>
        have h' : xs.length = ys.length := by simpa using h
        cases m <;> simp [masked, ih xs ys h']

theorem mem_of_masked {α : Type} {x : α} : ∀ (ms : List Bool) (xs : List α), x ∈ masked ms xs → x ∈ xs := by
  intro ms
  induction ms with
  | nil => intro xs h; simp [masked] at h
  | cons m ms ih =>
    intro xs h
    cases xs with
    | nil => cases m <;> simp [masked] at h
    | cons y ys =>
      cases m
      · exact List.mem_cons_of_mem _ (ih ys h)
      · simp only [masked, List.mem_cons] at h
        rcases h with rfl | h
        · simp
        · exact List.mem_cons_of_mem _ (ih ys h)

/-- The update service always succeeds on indexes inside the buffer, and writes the selected leaves. -/
theorem updateService_ok {τ : Type} {N T : Nat} (norm : ℚ → ℚ) {b : DPBuffer τ} (h : DInv N T b) (ps : List ℚ)
    (is vs : List Nat) (hp : ps.length = is.length) (hin : ∀ i ∈ is, i < N) :
    let mask := ((is.map fun i => b.versions.getD i 0).zip vs).map fun p => p.1 == p.2
    DInv N T (b.updateService norm ps is vs).1 ∧ (b.updateService norm ps is vs).1.versions = b.versions ∧
    (b.updateService norm ps is vs).2 = .ok () ∧
    ∀ i, i < N → (b.updateService norm ps is vs).1.base.tree.weights.getD i 0 =
      ((masked mask is).zip ((masked mask ps).map norm)).foldl (fun x p => if p.1 = i then p.2 else x)
        (b.base.tree.weights.getD i 0) := by
  intro mask
  have hv := versionsAt_ok (vs := b.versions) is (by rw [h.vlen]; exact hin)
  obtain ⟨t', k1, k2, k3, -, k4⟩ := updateLeafBatch_spec h.tree ((masked mask ps).map norm) (masked mask is)
    (by rw [List.length_map]; exact masked_length mask ps is hp)
    (by intro i hi; rw [h.size]; exact hin i (mem_of_masked _ _ hi))
  have e : b.updateService norm ps is vs = (⟨{ b.base with tree := t' }, b.versions⟩, .ok ()) := by
    simp only [DPBuffer.updateService, hv, PBuffer.updatePriority]
    rw [show ((is.map fun i => b.versions.getD i 0).zip vs).map (fun p => p.1 == p.2) = mask from rfl, k1]
  rw [e]
  exact ⟨⟨h.store, h.maps, k2, by rw [← h.size]; exact k3, h.vlen⟩, rfl, rfl, fun i hi => k4 i (by rw [h.size]; exact hi)⟩

/-- Along a history without clear, the version of a position is increased by the number of times it was written. -/
theorem Later.inv {ι τ : Type} {conv : ι → Except Err τ} {norm : ℚ → ℚ} {pw : ℚ → ℚ → ℚ} {N : Nat} (h2 : 2 ≤ N)
    {b₀ : DPBuffer τ} {T₀ : Nat} (h₀ : DInv N T₀ b₀) {W : List Nat} {T : Nat} {b : DPBuffer τ}
    (h : Later conv norm pw N b₀ T₀ W T b) :
    DInv N T b ∧ ∀ i, b.versions.getD i 0 = b₀.versions.getD i 0 + W.count i := by
  induction h with
  | refl => exact ⟨h₀, by simp⟩
  | store ep pr _ hle hpr ih =>
    obtain ⟨k1, k2⟩ := storeD_ok h2 conv norm ih.1 ep pr hle hpr
    refine ⟨k1, ?_⟩
    intro i
    rw [k2 i, ih.2 i, written_eq, List.count_append]
    omega
  | sample draws all _ ih =>
    obtain ⟨c, hc⟩ := sampleService_state pw _ draws all
    rw [hc]
    exact ⟨⟨ih.1.store, ih.1.maps, ih.1.tree, ih.1.size, ih.1.vlen⟩, ih.2⟩
  | update ps is vs _ hp _ hin ih =>
    obtain ⟨k1, k2, -, -⟩ := updateService_ok norm ih.1 ps is vs hp hin
    exact ⟨k1, fun i => by rw [k2]; exact ih.2 i⟩

/-- What a successful sample service returns. -/
theorem sampleService_inv {τ : Type} (pw : ℚ → ℚ → ℚ) (b : DPBuffer τ) (draws : List ℚ) (all : ℚ) (r : SampleRes τ)
    (h : (b.sampleService pw draws all).2 = .ok r) :
    r.len = r.batch.length ∧ r.index.length = r.batch.length ∧
      r.batch.map some = r.index.map (fun i => b.base.buf.storage.data[i]?) ∧
      r.version = r.index.map (fun i => b.versions.getD i 0) ∧ ∀ i ∈ r.index, i < b.versions.length := by
  unfold DPBuffer.sampleService at h
  split at h
  · cases h; simp
  · have hsi : ∀ base x, b.base.sampleIndexAndWeight pw draws (some all) = (base, .ok x) → base.buf = b.base.buf := by
      intro base x hx
      unfold PBuffer.sampleIndexAndWeight at hx
      split at hx
      · cases hx
      · split at hx
        · cases hx
        · cases hx; rfl
    split at h
    · cases h
    · rename_i base index ws hx
      have hb := hsi _ _ hx
      simp only at h
      split at h
      · cases h
      · rename_i version hv
        split at h
        · cases h
        · rename_i batch hf
          cases h
          rw [hb] at hf
          obtain ⟨hv1, hv2⟩ := versionsAt_inv _ _ hv
          cases index with
          | scalar x => simp [fetchIndex] at hf
          | array is =>
            simp only [fetchIndex] at hf
            have key : ∀ (is : List Nat) (xs : List τ), b.base.buf.fetch is = .ok xs →
                xs.map some = is.map (fun i => b.base.buf.storage.data[i]?) := by
              intro is
              induction is with
              | nil => intro xs hx; cases hx; rfl
              | cons i is ih =>
                intro xs hx
                simp only [Buffer.fetch, Storage.getItem] at hx
                cases hd : b.base.buf.storage.data[i]? with
                | none => rw [hd] at hx; cases hx
                | some y =>
                  rw [hd] at hx
                  simp only at hx
                  cases hr : b.base.buf.fetch is with
                  | error e => rw [hr] at hx; cases hx
                  | ok ys =>
                    rw [hr] at hx
                    cases hx
                    simp [hd, ih ys hr]
            have hk := key is batch hf
            refine ⟨rfl, ?_, hk, hv1, hv2⟩
            have := congrArg List.length hk
            simpa [Shaped.flat] using this.symm

/-- With a mask that depends on the position only, the selected writes are the filtered list of pairs. -/
theorem masked_zip (norm : ℚ → ℚ) (g : Nat → Bool) : ∀ (is : List Nat) (ps : List ℚ), ps.length = is.length →
    (masked (is.map g) is).zip ((masked (is.map g) ps).map norm) =
      ((is.zip ps).filter (fun p => g p.1)).map (fun p => (p.1, norm p.2)) := by
  intro is
  induction is with
  | nil => intro ps _; simp [masked]
  | cons i is ih =>
    intro ps h
    cases ps with
    | nil => simp at h
    | cons p ps =>
      have := ih ps (by simpa using h)
      cases hg : g i with
      | true => simp [masked, hg, this]
      | false => simp [masked, hg, this]

theorem foldl_filtered (norm : ℚ → ℚ) (g : Nat → Bool) (i : Nat) : ∀ (zs : List (Nat × ℚ)) (x : ℚ),
    ((zs.filter (fun p => g p.1)).map (fun p => (p.1, norm p.2))).foldl (fun x p => if p.1 = i then p.2 else x) x =
      if g i then (zs.map (fun p => (p.1, norm p.2))).foldl (fun x p => if p.1 = i then p.2 else x) x else x := by
  intro zs
  induction zs with
  | nil => intro x; simp
  | cons z zs ih =>
    intro x
    by_cases hz : g z.1
    · rw [List.filter_cons_of_pos (by simpa using hz), List.map_cons, List.foldl_cons, ih]
      by_cases hi : g i
      · simp [hi]
      · have : z.1 ≠ i := by rintro rfl; exact hi hz
        simp [hi, this]
    · rw [List.filter_cons_of_neg (by simpa using hz), ih]
      by_cases hi : g i
      · have : z.1 ≠ i := by rintro rfl; exact hz hi
        simp [hi, this]
      · simp [hi]

theorem foldl_not_mem (norm : ℚ → ℚ) (i : Nat) : ∀ (zs : List (Nat × ℚ)) (x : ℚ), i ∉ zs.map (·.1) →
    (zs.map (fun p => (p.1, norm p.2))).foldl (fun x p => if p.1 = i then p.2 else x) x = x := by
  intro zs
  induction zs with
  | nil => intro x _; rfl
  | cons z zs ih =>
    intro x h
    simp only [List.map_cons, List.mem_cons, not_or] at h
    rw [List.map_cons, List.foldl_cons, ih _ h.2, if_neg (Ne.symm h.1)]

theorem foldl_last (norm : ℚ → ℚ) (i : Nat) : ∀ (is : List Nat) (ps : List ℚ) (x : ℚ) (j : Nat) (p : ℚ),
    is[j]? = some i → ps[j]? = some p → (∀ j', j < j' → is[j']? ≠ some i) → ps.length = is.length →
    ((is.zip ps).map (fun p => (p.1, norm p.2))).foldl (fun x p => if p.1 = i then p.2 else x) x = norm p := by
  intro is
  induction is with
  | nil => intro ps x j p h; simp at h
  | cons k is ih =>
    intro ps x j p h1 h2 h3 h4
    cases ps with
    | nil => simp at h2
    | cons q ps =>
      rw [List.zip_cons_cons, List.map_cons, List.foldl_cons]
      have h4' : ps.length = is.length := by simpa using h4
      cases j with
      | succ j =>
        exact ih ps _ j p (by simpa using h1) (by simpa using h2)
          (fun j' hj' => by have := h3 (j' + 1) (by omega); simpa using this) h4'
      | zero =>
        simp only [List.getElem?_cons_zero, Option.some.injEq] at h1 h2
        subst h1; subst h2
        rw [foldl_not_mem]
        · simp
        · rw [List.map_fst_zip (by omega)]
          intro hm
          obtain ⟨j', hj'⟩ := List.mem_iff_getElem?.1 hm
          exact h3 (j' + 1) (by omega) (by simpa using hj')

/-! ### Splitting the priorities -/

theorem collect_append {τ : Type} : ∀ (rs : List (String × SampleRes τ)) (acc : Collected τ),
    (rs.map (·.1)).Nodup → (∀ m ∈ rs.map (·.1), m ∉ acc.index.keys) →
    let cs := rs.filter (fun p => p.2.len ≠ 0)
    collect rs acc = ⟨acc.len + (cs.map (·.2.len)).sum, acc.batch ++ (cs.map (·.2.batch)).flatten,
      acc.index ++ cs.map (fun p => (p.1, (p.2.index, p.2.version))), acc.isWeight ++ (cs.map (·.2.isWeight)).flatten⟩ := by
  intro rs
  induction rs with
  | nil => intro acc _ _; simp [collect]
  | cons p rs ih =>
    obtain ⟨m, r⟩ := p
    intro acc hnd hnm
    rw [List.map_cons, List.nodup_cons] at hnd
    by_cases h0 : r.len = 0
    · have := ih acc hnd.2 (fun k hk => hnm k (by simp only [List.map_cons, List.mem_cons]; exact Or.inr hk))
      simp only [collect, h0, if_true]
      rw [this]
      simp [h0]
    · have hset : acc.index.set m (r.index, r.version) = acc.index ++ [(m, (r.index, r.version))] :=
        PyDict.set_of_not_mem (hnm m (by simp)) _
      have := ih ⟨acc.len + r.len, acc.batch ++ r.batch, acc.index.set m (r.index, r.version), acc.isWeight ++ r.isWeight⟩
        hnd.2 (by
          intro k hk
          rw [hset, PyDict.keys_append]
          simp only [List.mem_append, not_or]
          refine ⟨hnm k (by simp only [List.map_cons, List.mem_cons]; exact Or.inr hk), ?_⟩
          simp only [PyDict.keys, List.map_cons, List.map_nil, List.mem_singleton]
          rintro rfl
          exact hnd.1 hk)
      simp only [collect, h0, if_false]
      rw [this, hset]
      simp [h0, Nat.add_assoc, List.append_assoc]

theorem updateCalls_eq : ∀ (d : PyDict String (List Nat × List Nat)) (ps pre : List ℚ) (pss : List (List ℚ)),
    ps = pre ++ pss.flatten → pss.map List.length = d.map (·.2.1.length) →
    updateCalls ps d pre.length = (d.zip pss).map fun x => (x.1.1, x.2, x.1.2.1, x.1.2.2) := by
  intro d
  induction d with
  | nil => intro ps pre pss _ _; simp [updateCalls]
  | cons p d ih =>
    obtain ⟨m, idx, ver⟩ := p
    intro ps pre pss hps hlen
    cases pss with
    | nil => simp at hlen
    | cons q pss =>
      simp only [List.map_cons, List.cons.injEq] at hlen
      have h1 : (ps.drop pre.length).take idx.length = q := by
        rw [hps, List.drop_left, List.flatten_cons, ← hlen.1, List.take_left]
      have := ih ps (pre ++ q) pss (by rw [hps]; simp) hlen.2
      rw [List.length_append, hlen.1] at this
      simp only [updateCalls, h1, this, List.zip_cons_cons, List.map_cons]

/-- A list can be cut into pieces of given lengths. -/
theorem exists_pieces {α : Type} : ∀ (ns : List Nat) (l : List α), l.length = ns.sum →
    ∃ pss : List (List α), pss.flatten = l ∧ pss.map List.length = ns := by
  intro ns
  induction ns with
  | nil => intro l h; simp at h; exact ⟨[], by simp [h], rfl⟩
  | cons n ns ih =>
    intro l h
    rw [List.sum_cons] at h
    obtain ⟨pss, h1, h2⟩ := ih (l.drop n) (by simp; omega)
    exact ⟨l.take n :: pss, by simp [h1], by simp [h2]; omega⟩

/-! ### Uniform buffer -/

theorem waitAll_ok {α : Type} : ∀ (xs : List α), waitAll (xs.map Except.ok) = .ok xs := by
  intro xs
  induction xs with
  | nil => rfl
  | cons x xs ih => simp only [List.map_cons, waitAll, ih]

end Machin.Dist
