import Verif.Rnn.Lemmas
import Verif.Replay.Props
import Verif.Prio.Props

/-! # Properties C20, C21, C65, C66: RNN buffers -/

namespace Machin.Rnn

open Replay Prio Spec

/-- C20. After any history of stores (of episodes no longer than the capacity), for every sample length `L >= 1`, batch
size and draw: with `live` the live episodes, `random_unique` returns one run of length `L` of each of the first `k`
episodes of a permutation of the live episodes that are long enough; `random` one run of each of `k` such episodes;
`all` every run of every live episode once, in order. Cutting the batch (`post_process_attribute`) gives those runs back.
-/
theorem C20_rnn_windows {ι τ : Type} (conv : ι → Except Err τ) (N : Nat) (hN : 1 ≤ N) (h : List (List ι))
    (hle : ∀ ep ∈ h, ep.length ≤ N) (L : Nat) (hL : 1 ≤ L) (B : Nat) (sample choices : List Nat → Nat → List Nat)
    (hsample : SampleContract sample) (hchoices : ChoicesContract choices) (randint : Nat → Nat → Nat)
    (hr : ∀ j hi, randint j hi ≤ hi) :
    let b := (Buffer.new τ N).run conv h
    let live := Replay.Spec.keep N (Replay.Spec.accepted conv h)
    let long := live.filter fun ep => L ≤ ep.length
    let k := min long.length B
    (∃ (perm ws : List (List τ)), perm.Perm long ∧ List.Forall₂ (IsRun L) (perm.take k) ws ∧
      sampleEpisodes sample randint b L B = .ok (k, ws.flatten) ∧ postProcess L ws.flatten = ws) ∧
    (∃ (eps ws : List (List τ)), eps.length = k ∧ (∀ ep ∈ eps, ep ∈ long) ∧ List.Forall₂ (IsRun L) eps ws ∧
      sampleEpisodes choices randint b L B = .ok (k, ws.flatten) ∧ postProcess L ws.flatten = ws) ∧
    (let ws := live.flatMap (runs L)
     sampleAll b L = .ok (ws.length, ws.flatten) ∧ postProcess L ws.flatten = ws) := by
  intro b live long k
  have hb := run_inv conv h _ _ (BInv.new τ hN) hle
  rw [List.nil_append] at hb
  obtain ⟨M, m1, m2, m3⟩ := BInv.entries hb
  change M.map (·.2) = live at m1
  change List.Forall₂ (Holds b) b.eth M at m3
  have hv := holds_valid L m3
  have hlong : (M.filter fun e => L ≤ e.2.length).map (·.2) = long := by
    show _ = live.filter _
    rw [← m1, List.filter_map]; rfl
  have hvl : (validEpisodes L b.eth).length = long.length := by
    rw [hv, ← hlong, List.length_map, List.length_map]
  have hrun : ∀ (eps ws : List (List τ)), List.Forall₂ (IsRun L) eps ws → postProcess L ws.flatten = ws := by
    intro eps ws hf
    apply postProcess_flatten L hL
    intro w hw
    obtain ⟨e, -, he⟩ : ∃ e ∈ eps, IsRun L e w := by
      clear hlong hvl hv
      induction hf with
      | nil => simp at hw
      | @cons a c as cs h1 h2 ih =>
        rcases List.mem_cons.1 hw with rfl | hw
        · exact ⟨a, by simp, h1⟩
        · obtain ⟨e, he, hr⟩ := ih hw; exact ⟨e, by simp [he], hr⟩
    exact IsRun.length he
  refine ⟨?_, ?_, ?_⟩
  · obtain ⟨l, hl, hs⟩ := hsample (validEpisodes L b.eth) (min (validEpisodes L b.eth).length B) (by omega)
    rw [hv] at hl
    obtain ⟨q, q1, q2⟩ := perm_map_inv (fun e : Nat × List τ => e.1) l _ hl
    obtain ⟨ws, w1, w2⟩ := sampleEpisodes_ok m3 m2 sample randint hr L B (q.take k)
      (fun e he => q1.subset (List.mem_of_mem_take he)) (by rw [hs, ← q2, List.map_take, hvl])
    have hql : q.length = long.length := by
      rw [q1.length_eq, ← hlong, List.length_map]
    refine ⟨q.map (·.2), ws, ?_, by rw [← List.map_take]; exact w1, ?_, hrun _ _ w1⟩
    · rw [← hlong]; exact q1.map _
    · rw [w2, List.length_take, hql]
      have : min k long.length = k := by omega
      rw [this]
  · obtain ⟨hl, hm⟩ := hchoices (validEpisodes L b.eth) (min (validEpisodes L b.eth).length B) (by omega)
    have hm' : ∀ y ∈ choices (validEpisodes L b.eth) (min (validEpisodes L b.eth).length B),
        y ∈ (M.filter fun e => L ≤ e.2.length).map (·.1) := by rw [← hv]; exact hm
    obtain ⟨q, q1, q2⟩ := mem_map_inv (fun e : Nat × List τ => e.1) _ _ hm'
    obtain ⟨ws, w1, w2⟩ := sampleEpisodes_ok m3 m2 choices randint hr L B q q1 q2.symm
    have hql : q.length = k := by
      have := congrArg List.length q2
      rw [List.length_map, hl, hvl] at this
      exact this
    refine ⟨q.map (·.2), ws, by rw [List.length_map, hql], ?_, w1, by rw [w2, hql], hrun _ _ w1⟩
    intro ep hep
    obtain ⟨e, he, rfl⟩ := List.mem_map.1 hep
    rw [← hlong]
    exact List.mem_map.2 ⟨e, q1 e he, rfl⟩
  · have := sampleAll_ok m3 m2 L
    rw [m1] at this
    refine ⟨this, ?_⟩
    apply postProcess_flatten L hL
    intro w hw
    obtain ⟨ep, -, hw⟩ := List.mem_flatMap.1 hw
    exact IsRun.length (runs_isRun hw)

example : sampleAll ((Buffer.new Nat 6).run Replay.exConv [[1, 2], [4], [6, 7, 8]]) 2 =
    .ok (3, [1, 2, 6, 7, 7, 8]) := by decide
example : sampleEpisodes (fun pop k => pop.reverse.take k) (fun _ hi => hi)
    ((Buffer.new Nat 6).run Replay.exConv [[1, 2], [4], [6, 7, 8]]) 2 5 = .ok (2, [7, 8, 1, 2]) := by decide

/-- C21, full statement: every sampling from a prioritized RNN buffer returns runs of stored episodes. -/
def C21_full : Prop :=
  ∀ (ι τ : Type) (conv : ι → Except Err τ) (norm : ℚ → ℚ) (pw : ℚ → ℚ → ℚ) (N L : Nat) (beta inc : ℚ),
    1 ≤ N → 1 ≤ L → (∀ p, 0 < norm p) → ∀ (eps : List (List τ)) (b : PBuffer τ),
    Hist conv norm pw N L beta inc eps b → 0 < b.buf.size →
    ∀ draws : List ℚ, 2 ≤ draws.length → (∀ u ∈ draws, 0 < u ∧ u < 1) →
    ∃ ws : List (List τ), (∀ w ∈ ws, ∃ ep ∈ eps, IsRun L ep w) ∧ ws.length = draws.length ∧
      ∃ (index : List Nat) (iw : List ℚ),
        (sampleBatch pw L b draws).2 = .ok (draws.length, some (ws.flatten, index, iw))

/-- C21 is violated: with only episodes shorter than the sample length in the buffer all priorities are 0, position 0 is
drawn anyway, and the sequence runs across two episodes. -/
theorem C21_violated : ¬ C21_full := by
  intro h
  obtain ⟨ws, h1, h2, index, iw, h3⟩ := h Nat Nat Prio.exConv exNorm exPow 4 2 (2 / 5) (1 / 1000) (by decide) (by decide)
    (by intro p; unfold exNorm; positivity) _ _
    (Hist.store [2] none false (Hist.store [1] none false Hist.new (by decide) (by simp)) (by decide) (by simp))
    (by decide +kernel) [1 / 2, 1 / 2] (by decide) (by decide +kernel)
  have e : ∃ iw' : List ℚ, (sampleBatch exPow 2 (storeEpisode Prio.exConv exNorm 2 (storeEpisode Prio.exConv exNorm 2
      (PBuffer.new Nat 4 (2 / 5) (1 / 1000)) [1] none false).1 [2] none false).1 [1 / 2, 1 / 2]).2 =
      .ok (2, some ([1, 2, 1, 2], [0, 0], iw')) := ⟨[0, 0], by decide +kernel⟩
  obtain ⟨iw', e⟩ := e
  rw [h3] at e
  simp only [Except.ok.injEq, Prod.mk.injEq, Option.some.injEq] at e
  match ws, h2, h1, e.2.1 with
  | [w1, w2], _, h1, e =>
    obtain ⟨ep, hep, p, hp, -⟩ := h1 w1 (by simp)
    have : ep = [1] ∨ ep = [2] := by
      have h' : Prio.Spec.accepted Prio.exConv [1] = [1] := by decide
      have h'' : Prio.Spec.accepted Prio.exConv [2] = [2] := by decide
      rw [h', h''] at hep
      simpa using hep
    rcases this with rfl | rfl
    · simp at hp
    · simp at hp

/-- C21 is also violated by wrap-around: the window of an episode stored across the end of the ring is read past the
end, `IndexError`, although every draw is legal and every priority positive. -/
theorem C21_violated_wrap : ¬ C21_full := by
  intro h
  obtain ⟨ws, h1, h2, index, iw, h3⟩ := h Nat Nat Prio.exConv exNorm exPow 4 2 (2 / 5) (1 / 1000) (by decide) (by decide)
    (by intro p; unfold exNorm; positivity) _ _
    (Hist.store [4, 5, 6] none false (Hist.store [1, 2, 3] none false Hist.new (by decide) (by simp)) (by decide)
      (by simp)) (by decide +kernel) [1 / 2, 99 / 100] (by decide) (by decide +kernel)
  have e : (sampleBatch exPow 2 (storeEpisode Prio.exConv exNorm 2 (storeEpisode Prio.exConv exNorm 2
      (PBuffer.new Nat 4 (2 / 5) (1 / 1000)) [1, 2, 3] none false).1 [4, 5, 6] none false).1 [1 / 2, 99 / 100]).2 =
      .error .index := by decide +kernel
  rw [h3] at e
  cases e

/-- C21, what does hold: with at least two draws, all inside `(0, 1)`, from a buffer of total weight above `1e-6` (after
any history of legal stores, samplings, priority updates of just sampled indexes, and clears), the sampled sequences
are runs of length `L` of stored episodes; or, and only after the ring has wrapped, sampling raises `IndexError`.
Missing: buffers whose total weight is 0, samplings after wrap-around, a batch size of 1 (see C12), priority updates of
indexes overwritten since they were sampled. -/
theorem C21_prioritized_rnn_windows_partial {ι τ : Type} (conv : ι → Except Err τ) (norm : ℚ → ℚ) (pw : ℚ → ℚ → ℚ)
    (N L : Nat) (beta inc : ℚ) (hN : 1 ≤ N) (hL : 1 ≤ L) (hnorm : ∀ p, 0 ≤ norm p) (eps : List (List τ))
    (b : PBuffer τ) (hist : Hist conv norm pw N L beta inc eps b) (hne : 0 < b.buf.size) (draws : List ℚ)
    (h2 : 2 ≤ draws.length) (hd : ∀ u ∈ draws, 0 < u ∧ u < 1) (hsum : 1 / 1000000 < b.tree.weightSum) :
    (∃ ws : List (List τ), (∀ w ∈ ws, ∃ ep ∈ eps, IsRun L ep w) ∧ ws.length = draws.length ∧
      ∃ (index : List Nat) (iw : List ℚ),
        (sampleBatch pw L b draws).2 = .ok (draws.length, some (ws.flatten, index, iw))) ∨
    (N < eps.flatten.length ∧ (sampleBatch pw L b draws).2 = .error .index) := by
  have hinv := hist.inv hN hL hnorm
  have hnn : ∀ i, i < b.tree.size → 0 ≤ b.tree.weights.getD i 0 := by rw [hinv.size]; exact hinv.nonneg
  set is := (queries b.tree.weightSum draws).map (pick b.tree) with his
  have hil : is.length = draws.length := by simp [his, queries]
  have hin : ∀ i ∈ is, i < N ∧ 0 < b.tree.weights.getD i 0 := by
    intro i hi
    obtain ⟨q, hq, rfl⟩ := List.mem_map.1 hi
    have h1 := queries_bounds hinv.sum_nonneg draws q hq
    have h2 := queries_pos hsum draws hd q hq
    have := (pick_spec hinv.tree hnn h1.1 h1.2).2.1
    exact ⟨by rw [hinv.size] at this; exact this, pick_pos hinv.tree hnn h2 h1.2⟩
  have hshape : shape is = .array is := by
    match hm : is with
    | [] => rfl
    | [x] => simp at hil; omega
    | x :: y :: l => rfl
  have hcond : ¬ (draws.length = 0 ∨ b.buf.size = 0) := by omega
  rcases hinv.windows is hin with ⟨ws, w1, w2, w3⟩ | ⟨w1, w2⟩
  · left
    refine ⟨ws, w2, by omega, is, isWeights pw b.buf.storage.len (orSum none b.tree.weightSum) b.currBeta
      (is.map fun i => b.tree.weights.getD i 0), ?_⟩
    simp only [sampleBatch, hcond, if_false, sampleIndex_ok' pw hinv draws none]
    rw [← his, hshape]
    simp only [fetchWindows, w3, Shaped.flat, hil]
  · right
    refine ⟨w1, ?_⟩
    simp only [sampleBatch, hcond, if_false, sampleIndex_ok' pw hinv draws none]
    rw [← his, hshape]
    simp only [fetchWindows, w2]

/-- A buffer meeting the hypotheses. -/
abbrev exR : PBuffer Nat := (storeEpisode Prio.exConv exNorm 2 (PBuffer.new Nat 4 (2 / 5) (1 / 1000)) [1, 2, 3] none
  false).1

example : Hist Prio.exConv exNorm exPow 4 2 (2 / 5) (1 / 1000) [[1, 2, 3]] exR ∧ 0 < exR.buf.size ∧
    1 / 1000000 < exR.tree.weightSum :=
  ⟨Hist.store [1, 2, 3] none false Hist.new (by decide) (by simp), by decide +kernel, by decide +kernel⟩

/-- C65, full statement: every buffer class can be constructed with its documented required arguments. -/
def C65_full : Prop :=
  ∀ c ∈ classes, ∀ ctor ∈ c.2.head?, construct c.2 ctor.required = .ok ()

/-- C65 is violated: three of the eight classes can never be constructed, whatever keyword arguments are given: a keyword
passed on by `RNNBuffer.__init__` collides with one its parent writes out. -/
theorem C65_unconstructible (kw : List String) :
    construct [ctorRnnDist, ctorRnn, ctorDist, ctorBuffer] kw = .error .type ∧
    construct [ctorRnnPrio, ctorRnn, ctorPrio, ctorBuffer] kw = .error .type ∧
    construct [ctorRnnDistPrio, ctorRnn, ctorDistPrio, ctorPrio, ctorBuffer] kw = .error .type := by
  have key : ∀ (a c d : Ctor) (cs : List Ctor) (k : String), k ∈ ctorRnn.explicit → k ∉ c.required → k ∉ c.optional →
      k ∈ c.explicit → construct (a :: ctorRnn :: c :: d :: cs) kw = .error .type := by
    intro a c d cs k h1 h2 h3 h4
    rcases construct_step a ctorRnn (c :: d :: cs) kw with h | h
    · exact h
    · rw [h]
      rcases construct_step ctorRnn c (d :: cs) (a.explicit ++ kw.filter fun k => k ∉ a.required ∧ k ∉ a.optional)
        with h' | h'
      · exact h'
      · rw [h']
        exact construct_collision c d cs _ k (List.mem_append_left _ h1) h2 h3 h4
  exact ⟨key _ _ _ _ "buffer_device" (by decide) (by decide) (by decide) (by decide),
    key _ _ _ _ "storage" (by decide) (by decide) (by decide) (by decide),
    key _ _ _ _ "buffer_device" (by decide) (by decide) (by decide) (by decide)⟩

theorem C65_violated : ¬ C65_full := by
  intro h
  have := h ("RNNPrioritizedBuffer", [ctorRnnPrio, ctorRnn, ctorPrio, ctorBuffer]) (by simp [classes]) ctorRnnPrio rfl
  rw [(C65_unconstructible _).2.1] at this
  cases this

/-- C65, what does hold: the other five classes can be constructed with their required and any choice of distinct
documented optional arguments. -/
theorem C65_construct_partial (kw : List String) (hnd : kw.Nodup) :
    ((∀ k ∈ kw, k ∈ ctorBuffer.optional) → construct [ctorBuffer] kw = .ok ()) ∧
    ((∀ k ∈ kw, k ∈ ctorPrio.optional) → construct [ctorPrio, ctorBuffer] kw = .ok ()) ∧
    ((∀ k ∈ ctorDist.required, k ∈ kw) → (∀ k ∈ kw, k ∈ ctorDist.required ∨ k ∈ ctorDist.optional) →
      construct [ctorDist, ctorBuffer] kw = .ok ()) ∧
    ((∀ k ∈ ctorDistPrio.required, k ∈ kw) → (∀ k ∈ kw, k ∈ ctorDistPrio.required ∨ k ∈ ctorDistPrio.optional) →
      construct [ctorDistPrio, ctorPrio, ctorBuffer] kw = .ok ()) ∧
    ((∀ k ∈ ctorRnn.required, k ∈ kw) → (∀ k ∈ kw, k ∈ ctorRnn.required ∨ k ∈ ctorRnn.optional) →
      construct [ctorRnn, ctorBuffer] kw = .ok ()) := by
  have hfil : ∀ c : Ctor, (∀ k ∈ kw, k ∈ c.required ∨ k ∈ c.optional) →
      (kw.filter fun k => k ∉ c.required ∧ k ∉ c.optional) = [] := by
    intro c hc
    rw [List.filter_eq_nil_iff]
    intro k hk
    rcases hc k hk with h | h <;> simp [h]
  refine ⟨?_, ?_, ?_, ?_, ?_⟩
  · intro _; simp [construct, hnd, ctorBuffer]
  · intro h
    rw [construct_ok _ _ _ _ hnd (by intro r hr; cases hr), hfil ctorPrio (fun k hk => Or.inr (h k hk))]
    decide
  · intro h1 h2
    rw [construct_ok _ _ _ _ hnd h1, hfil ctorDist h2]
    decide
  · intro h1 h2
    rw [construct_ok _ _ _ _ hnd h1, hfil ctorDistPrio h2]
    decide
  · intro h1 h2
    rw [construct_ok _ _ _ _ hnd h1, hfil ctorRnn h2]
    decide

example : ∀ k ∈ ["group", "buffer_name", "epsilon"], k ∈ ctorDistPrio.required ∨ k ∈ ctorDistPrio.optional := by decide

/-- C66, full statement: `RNNDistributedPrioritizedBuffer.store_episode` of a valid episode, with the default required
attributes, stores it with the initial priorities of `RNNPrioritizedBuffer`. -/
def C66_full : Prop :=
  ∀ (ι τ : Type) (conv : ι → Except Err τ) (norm : ℚ → ℚ) (L : Nat) (b : PBuffer τ) (ep : List ι),
    (storeEpisode conv norm L b ep none false).2 = .ok () →
    storeEpisodeD conv norm L b ep none false (some ["state", "action", "next_state", "reward", "terminal"]) =
      storeEpisode conv norm L b ep none false

/-- C66 is violated, for every buffer and every non-empty tuple of required attributes: a store that `RNNPrioritizedBuffer`
accepts always raises `TypeError` here, after the transitions have been written, and without giving them a priority. -/
theorem C66_store_always_fails {ι τ : Type} (conv : ι → Except Err τ) (norm : ℚ → ℚ) (L : Nat) (b : PBuffer τ)
    (ep : List ι) (pr : Option (List ℚ)) (nd : Bool) (a : String) (attrs : List String)
    (h : (storeEpisode conv norm L b ep pr nd).2 = .ok ()) :
    storeEpisodeD conv norm L b ep pr nd (some (a :: attrs)) =
      ({ b with buf := (storeEpisode conv norm L b ep pr nd).1.buf }, .error .type) := by
  simp only [storeEpisode, storeEpisodeD] at h ⊢
  rcases hs : b.buf.storeEpisode conv ep with ⟨buf, e | u⟩
  · rw [hs] at h; cases h
  · rw [hs] at h
    simp only at h ⊢
    cases hg : buf.eth.get? (buf.counter - 1) with
    | none => rw [hg] at h; cases h
    | some ps =>
      rw [hg] at h
      simp only at h ⊢
      cases hp : storePriorities norm b.tree.leafMax L ep.length pr nd with
      | error e => rw [hp] at h; first | done | cases h
      | ok ws => rfl

theorem C66_violated : ¬ C66_full := by
  intro h
  have := h Nat Nat Prio.exConv exNorm 2 (PBuffer.new Nat 4 (2 / 5) (1 / 1000)) [1, 2, 3] (by decide +kernel)
  rw [C66_store_always_fails] at this
  · have := congrArg (fun x => x.2) this
    revert this
    decide +kernel
  · decide +kernel

/-- C66, what does hold: with `required_attrs=None` the final priorities are those of `RNNPrioritizedBuffer`, up to the
running maximum of the leaves, which the extra store raises. -/
theorem C66_store_none_partial {ι τ : Type} {N : Nat} (conv : ι → Except Err τ) (norm : ℚ → ℚ) (L : Nat) (b : PBuffer τ)
    (eps : List (List τ)) (h : RInv N L eps b) (ep : List ι) (ps : List ℚ) (hps : ps.length = ep.length)
    (h0 : ep ≠ []) (hle : ep.length ≤ N) (hv : ∃ ys, ep.mapM conv = .ok ys) (nd : Bool) (hnd : ep.length < L → nd = true) :
    let r := storeEpisodeD conv norm L b ep (some ps) nd none
    let r' := storeEpisode conv norm L b ep (some ps) nd
    r.2 = .ok () ∧ r'.2 = .ok () ∧ r.1.buf = r'.1.buf ∧
      ∀ i, i < N → r.1.tree.leafWeight [(i : Int)] = r'.1.tree.leafWeight [(i : Int)] := by
  intro r r'
  obtain ⟨ys, hc⟩ := hv
  have hlen := mapM_length conv ep ys hc
  have hpos := h.store.pos
  obtain ⟨b', g1, g2, g3, g4, g5, -⟩ := storeEpisode_map conv h.store h.maps ep ys h0 hc hle
  have g5' : b'.eth.get? (b'.counter - 1) = some (slots N eps.flatten.length ys.length) := by
    rw [g4]; exact g5
  have hin : ∀ i ∈ slots N eps.flatten.length ys.length, i < b.tree.size := by
    intro i hi
    obtain ⟨k, _, _, rfl⟩ := mem_slots.1 hi
    rw [h.size]; exact Nat.mod_lt _ hpos
  have hsp : ∃ ws, (∀ lm, storePriorities norm lm L ep.length (some ps) nd = .ok ws) ∧ ws.length = ep.length := by
    by_cases hcL : ep.length < L
    · exact ⟨ps.map fun _ => 0, by intro lm; simp [storePriorities, hcL, hnd hcL], by simp [hps]⟩
    · exact ⟨(ps.map norm).take (ep.length - L + 1) ++ ((ps.map norm).drop (ep.length - L + 1)).map fun _ => 0,
        by intro lm; simp only [storePriorities, hcL, if_false], by simp [hps]; omega⟩
  obtain ⟨ws, w1, w2⟩ := hsp
  obtain ⟨t1, a1, a2, a3, -, a5⟩ := updateLeafBatch_spec h.tree ws (slots N eps.flatten.length ys.length)
    (by simp; omega) hin
  obtain ⟨t2, b1, b2, b3, -, b5⟩ := updateLeafBatch_spec h.tree
    (List.replicate (slots N eps.flatten.length ys.length).length (norm b.tree.leafMax))
    (slots N eps.flatten.length ys.length) (by simp) hin
  obtain ⟨t3, c1, c2, c3, -, c5⟩ := updateLeafBatch_spec b2 ws (slots N eps.flatten.length ys.length)
    (by simp; omega) (by rw [b3]; exact hin)
  have e' : r' = ({ b with buf := b', tree := t1 }, .ok ()) := by
    simp only [r', storeEpisode, g1, g5', w1, a1]
  have e : r = ({ b with buf := b', tree := t3 }, .ok ()) := by
    simp only [r, storeEpisodeD, PBuffer.storeEpisode, g1, g5', b1, w1, c1]
  rw [e, e']
  refine ⟨rfl, rfl, rfl, ?_⟩
  intro i hi
  have hleaf : ∀ (t : WeightTree), TInv t → i < t.size →
      t.leafWeight [(i : Int)] = .ok (.scalar (t.weights.getD i 0)) := by
    intro t ht hit
    exact leafWeight_ok ht [i] (by intro j hj; have : j = i := by simpa using hj
                                   omega)
  have hsz := h.size
  simp only
  rw [hleaf t3 c2 (by omega), hleaf t1 a2 (by omega), c5 i (by omega), b5 i (by omega), a5 i (by omega)]
  by_cases hm : i ∈ slots N eps.flatten.length ys.length
  · obtain ⟨j, hj⟩ := List.mem_iff_getElem?.1 hm
    have hnd' := slots_nodup (N := N) (s := eps.flatten.length) (len := ys.length) (by omega)
    obtain ⟨w, q1, q2⟩ := foldl_at i _ ws j hnd' hj (by simp; omega)
      (((slots N eps.flatten.length ys.length).zip (List.replicate (slots N eps.flatten.length ys.length).length
        (norm b.tree.leafMax))).foldl (fun x p => if p.1 = i then p.2 else x) (b.tree.weights.getD i 0))
    obtain ⟨w', q1', q2'⟩ := foldl_at i _ ws j hnd' hj (by simp; omega) (b.tree.weights.getD i 0)
    rw [q2, q2']
    rw [q1] at q1'
    rw [Option.some.inj q1']
  · rw [foldl_last_of_not_mem, foldl_last_of_not_mem, foldl_last_of_not_mem]
    · rw [List.map_fst_zip (by simp; omega)]; exact hm
    · rw [List.map_fst_zip (by simp)]; exact hm
    · rw [List.map_fst_zip (by simp; omega)]; exact hm

example : RInv 4 2 [] (PBuffer.new Nat 4 (2 / 5) (1 / 1000)) ∧ [1, 2, 3].mapM Prio.exConv = .ok [1, 2, 3] :=
  ⟨RInv.new Nat (by decide) 2 _ _, rfl⟩

end Machin.Rnn
