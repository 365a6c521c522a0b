import Verif.Rnn.LemmasUniform

/-!
# C215: the distribution of the windows of the RNN buffer

An outcome of `random.choices` is an index into the population for each place, one of `random.sample` a permutation of the population of which the first ones
are returned. `random.randint(0, hi)` is a draw from `D` values modulo `hi + 1`, where `hi + 1` divides `D`. All outcomes are equally likely.
-/

namespace Machin.Rnn

open Replay Spec

/-- The population in the order of an outcome. -/
def pick {K n : Nat} (f : Fin K → Fin n) (pop : List Nat) (k : Nat) : List Nat := (List.ofFn fun j => pop.getD (f j) 0).take k

/-- The `i`-th call of `random.randint(0, hi)`. -/
def pickInt {K D : Nat} (r : Fin K → Fin D) (i hi : Nat) : Nat := if h : i < K then (r ⟨i, h⟩).val % (hi + 1) else 0

/-- Window `j` of the batch. -/
def windowOf {τ : Type} (L : Nat) (res : Except Err (Nat × List τ)) (j : Nat) : Option (List τ) :=
  match res with
  | .error _ => none
  | .ok (_, l) => (postProcess L l)[j]?

/-- The average over episodes of the share of windows of the episode with some property. -/
def meanShare {τ : Type} (L : Nat) (p : List τ → Bool) (eps : List (List τ)) : ℚ :=
  (eps.map fun ep => ((runs L ep).countP p : ℚ) / (runs L ep).length).sum / eps.length

theorem window_eq {τ : Type} {b : Buffer τ} {M : List (Nat × List τ)} (m3 : List.Forall₂ (Holds b) b.eth M) (m2 : (M.map (·.1)).Nodup) (L : Nat) (hL : 1 ≤ L)
    (long : List (Nat × List τ)) (hlong : long = M.filter fun e => L ≤ e.2.length)
    {K D : Nat} (B : Nat) (f : Fin K → Fin long.length) (r : Fin B → Fin D) (j : Nat) (hjK : j < K) (hjB : j < B) (hj : j < long.length) :
    windowOf L (sampleEpisodes (pick f) (pickInt r) b L B) j =
      some (((long[f ⟨j, hjK⟩]).2.drop ((r ⟨j, hjB⟩).val % ((long[f ⟨j, hjK⟩]).2.length - L + 1))).take L) := by
  have hv := holds_valid L m3
  rw [← hlong] at hv
  set k := min (validEpisodes L b.eth).length B with hk
  have hvl : (validEpisodes L b.eth).length = long.length := by rw [hv]; simp
  have hjk : j < k := by omega
  set q : List (Nat × List τ) := (List.ofFn fun i => long[f i]).take k with hqdef
  have hmem : ∀ e ∈ q, e ∈ M.filter fun e => L ≤ e.2.length := by
    intro e he
    obtain ⟨i, rfl⟩ := List.mem_ofFn.1 (List.mem_of_mem_take he)
    rw [← hlong]
    exact List.getElem_mem _
  have hdraw : pick f (validEpisodes L b.eth) k = q.map (·.1) := by
    unfold pick
    rw [hqdef, List.map_take, List.map_ofFn]
    congr 2
    funext i
    rw [hv]
    simp [List.getD_eq_getElem?_getD, List.getElem?_map]
  have hex := sampleEpisodes_exact m3 m2 (pick f) (pickInt r) L B q hmem hdraw
  rw [hex]
  have hlen : ∀ e ∈ q, L ≤ e.2.length := fun e he => by
    have := (List.mem_filter.1 (hmem e he)).2; simpa using this
  simp only [windowOf]
  rw [postProcess_flatten L hL]
  · have hqj : q[j]? = some long[f ⟨j, hjK⟩] := by
      rw [hqdef, List.getElem?_take, if_pos hjk, List.getElem?_ofFn, dif_pos hjK]
    rw [List.getElem?_mapIdx, hqj]
    simp [pickInt, hjB]
  · intro w hw
    rw [List.mem_mapIdx] at hw
    obtain ⟨i, hi, rfl⟩ := hw
    have h1 := hlen q[i] (List.getElem_mem _)
    have h2 : pickInt r i (q[i].2.length - L) ≤ q[i].2.length - L := by
      unfold pickInt
      split
      · next hiB =>
        have := Nat.mod_lt (r ⟨i, hiB⟩).val (Nat.succ_pos (q[i].2.length - L))
        exact Nat.le_of_lt_succ this
      · omega
    rw [List.length_take, List.length_drop]
    omega

theorem card_runs {τ : Type} (L : Nat) (ep : List τ) (hL : L ≤ ep.length) (p : List τ → Bool) :
    ((Finset.univ.filter fun s : Fin (ep.length - L + 1) => p ((ep.drop s.val).take L) = true).card : ℚ) / ((ep.length - L + 1 : Nat) : ℚ) =
      ((runs L ep).countP p : ℚ) / (runs L ep).length := by
  have hl : (runs L ep).length = ep.length - L + 1 := by unfold runs; simp; omega
  have hget : ∀ (s : Nat) (hs : s < (runs L ep).length), (runs L ep)[s] = (ep.drop s).take L := by
    intro s hs
    simp [runs]
  have hl' : ((runs L ep).length : ℚ) = ((ep.length - L + 1 : Nat) : ℚ) := by rw [hl]
  rw [hl', ← card_countP]
  congr 2
  refine Finset.card_bij' (fun s _ => ⟨s.val, by rw [hl]; exact s.isLt⟩) (fun s _ => ⟨s.val, by rw [← hl]; exact s.isLt⟩) ?_ ?_ ?_ ?_
  · intro s h
    simp only [Finset.mem_filter, Finset.mem_univ, true_and, Fin.getElem_fin, hget] at h ⊢
    exact h
  · intro s h
    simp only [Finset.mem_filter, Finset.mem_univ, true_and, Fin.getElem_fin, hget] at h ⊢
    exact h
  · intro s _; rfl
  · intro s _; rfl

theorem share_windows {τ : Type} {b : Buffer τ} {M : List (Nat × List τ)} (m3 : List.Forall₂ (Holds b) b.eth M) (m2 : (M.map (·.1)).Nodup) (L : Nat) (hL : 1 ≤ L)
    (long : List (Nat × List τ)) (hlong : long = M.filter fun e => L ≤ e.2.length) (n : Nat) (hn : long.length = n)
    (B D : Nat) (hD : 0 < D) (hdiv : ∀ e ∈ long, (e.2.length - L + 1) ∣ D) {Ω : Type} [Fintype Ω] [Nonempty Ω] {K : Nat}
    (F : Ω → Fin K → Fin n) (j : Nat) (hjK : j < K) (hjB : j < B) (hj : j < n)
    (hg : ∀ i i', (Finset.univ.filter fun o => F o ⟨j, hjK⟩ = i).card = (Finset.univ.filter fun o => F o ⟨j, hjK⟩ = i').card) (p : List τ → Bool) :
    shareOf (fun o : Ω × (Fin B → Fin D) => (windowOf L (sampleEpisodes (pick (F o.1)) (pickInt o.2) b L B) j).any p) =
      meanShare L p (long.map (·.2)) := by
  subst hn
  have e1 : (fun o : Ω × (Fin B → Fin D) => (windowOf L (sampleEpisodes (pick (F o.1)) (pickInt o.2) b L B) j).any p) =
      fun o => (fun (i : Fin long.length) (r : Fin B → Fin D) => (fun s => p ((long[i].2.drop s).take L)) ((r ⟨j, hjB⟩).val % (long[i].2.length - L + 1))) (F o.1 ⟨j, hjK⟩) o.2 := by
    funext o
    rw [window_eq m3 m2 L hL long hlong B (F o.1) o.2 j hjK hjB hj]
    rfl
  rw [e1, shareOf_prod (fun o : Ω => F o ⟨j, hjK⟩) hg (fun (i : Fin long.length) (r : Fin B → Fin D) =>
    (fun s => p ((long[i].2.drop s).take L)) ((r ⟨j, hjB⟩).val % (long[i].2.length - L + 1)))]
  unfold meanShare
  rw [List.length_map, List.map_map]
  congr 1
  have e2 : ∀ i : Fin long.length, shareOf (fun r : Fin B → Fin D => (fun s => p ((long[i].2.drop s).take L)) ((r ⟨j, hjB⟩).val % (long[i].2.length - L + 1))) =
      ((runs L long[i].2).countP p : ℚ) / (runs L long[i].2).length := by
    intro i
    have hm : long[i] ∈ long := List.getElem_mem _
    have hm' : L ≤ long[i].2.length := by
      have h2 : ∀ e ∈ long, L ≤ e.2.length := by
        intro e he
        rw [hlong] at he
        simpa using (List.mem_filter.1 he).2
      exact h2 _ hm
    rw [shareOf_mod (Nat.succ_pos _) (hdiv _ hm) hD ⟨j, hjB⟩ (fun s => p ((long[i].2.drop s).take L))]
    exact card_runs L _ hm' p
  rw [Finset.sum_congr rfl fun i _ => e2 i]
  exact Fin.sum_univ_fun_getElem long (fun e : Nat × List τ => ((runs L e.2).countP p : ℚ) / (runs L e.2).length)

/-- The live episodes that are long enough, with their numbers. -/
theorem long_entries {ι τ : Type} (conv : ι → Except Err τ) (N : Nat) (hN : 1 ≤ N) (h : List (List ι)) (hle : ∀ ep ∈ h, ep.length ≤ N) (L : Nat) :
    ∃ M : List (Nat × List τ), List.Forall₂ (Holds ((Buffer.new τ N).run conv h)) ((Buffer.new τ N).run conv h).eth M ∧ (M.map (·.1)).Nodup ∧
      (M.filter fun e => L ≤ e.2.length).map (·.2) = (Replay.Spec.keep N (Replay.Spec.accepted conv h)).filter fun ep => L ≤ ep.length := by
  have hb := run_inv conv h _ _ (BInv.new τ hN) hle
  rw [List.nil_append] at hb
  obtain ⟨M, m1, m2, m3⟩ := BInv.entries hb
  refine ⟨M, m3, m2, ?_⟩
  rw [← m1, List.filter_map]; rfl

/-- C215: after any history of stores, every window of a batch of `random` first picks a live episode that is long enough, all with the same probability,
and then one of its windows, all with the same probability. -/
theorem C215_random {ι τ : Type} (conv : ι → Except Err τ) (N : Nat) (hN : 1 ≤ N) (h : List (List ι)) (hle : ∀ ep ∈ h, ep.length ≤ N) (L : Nat) (hL : 1 ≤ L)
    (B D j : Nat) (hD : 0 < D) (p : List τ → Bool) :
    let b := (Buffer.new τ N).run conv h
    let long := (Replay.Spec.keep N (Replay.Spec.accepted conv h)).filter fun ep => L ≤ ep.length
    (∀ ep ∈ long, (ep.length - L + 1) ∣ D) → j < min long.length B →
      shareOf (fun o : (Fin B → Fin long.length) × (Fin B → Fin D) => (windowOf L (sampleEpisodes (pick o.1) (pickInt o.2) b L B) j).any p) =
        meanShare L p long := by
  intro b long hdiv hj
  obtain ⟨M, m3, m2, hlong⟩ := long_entries conv N hN h hle L
  change _ = long at hlong
  have : Nonempty (Fin B → Fin long.length) := ⟨fun _ => ⟨0, by omega⟩⟩
  have key := share_windows m3 m2 L hL _ rfl long.length (by rw [← hlong, List.length_map]) B D hD
    (fun e he => hdiv e.2 (by rw [← hlong]; exact List.mem_map.2 ⟨e, he, rfl⟩))
    (fun f : Fin B → Fin long.length => f) j (by omega) (by omega) (by omega) (fun i i' => fibers_choice _ i i') p
  rw [hlong] at key
  exact key

/-- C215: the same for `random_unique`. -/
theorem C215_unique {ι τ : Type} (conv : ι → Except Err τ) (N : Nat) (hN : 1 ≤ N) (h : List (List ι)) (hle : ∀ ep ∈ h, ep.length ≤ N) (L : Nat) (hL : 1 ≤ L)
    (B D j : Nat) (hD : 0 < D) (p : List τ → Bool) :
    let b := (Buffer.new τ N).run conv h
    let long := (Replay.Spec.keep N (Replay.Spec.accepted conv h)).filter fun ep => L ≤ ep.length
    (∀ ep ∈ long, (ep.length - L + 1) ∣ D) → j < min long.length B →
      shareOf (fun o : Equiv.Perm (Fin long.length) × (Fin B → Fin D) => (windowOf L (sampleEpisodes (pick o.1) (pickInt o.2) b L B) j).any p) =
        meanShare L p long := by
  intro b long hdiv hj
  obtain ⟨M, m3, m2, hlong⟩ := long_entries conv N hN h hle L
  change _ = long at hlong
  have key := share_windows m3 m2 L hL _ rfl long.length (by rw [← hlong, List.length_map]) B D hD
    (fun e he => hdiv e.2 (by rw [← hlong]; exact List.mem_map.2 ⟨e, he, rfl⟩))
    (fun f : Equiv.Perm (Fin long.length) => (f : _ → _)) j (by omega) (by omega) (by omega) (fun i i' => fibers_perm _ i i') p
  rw [hlong] at key
  exact key

/-- C215: the windows of a batch of `random` are drawn independently, with independent starts: properties asked of all windows hold together with the product
of their probabilities. -/
theorem C215_independent {ι τ : Type} (conv : ι → Except Err τ) (N : Nat) (hN : 1 ≤ N) (h : List (List ι)) (hle : ∀ ep ∈ h, ep.length ≤ N) (L : Nat) (hL : 1 ≤ L)
    (B D : Nat) (hD : 0 < D) (p : Nat → List τ → Bool) :
    let b := (Buffer.new τ N).run conv h
    let long := (Replay.Spec.keep N (Replay.Spec.accepted conv h)).filter fun ep => L ≤ ep.length
    (∀ ep ∈ long, (ep.length - L + 1) ∣ D) → long ≠ [] →
      shareOf (fun o : (Fin B → Fin long.length) × (Fin B → Fin D) =>
          decide (∀ j < min long.length B, (windowOf L (sampleEpisodes (pick o.1) (pickInt o.2) b L B) j).any (p j) = true)) =
        ∏ j ∈ Finset.range (min long.length B), meanShare L (p j) long := by
  intro b long hdiv hne
  obtain ⟨M, m3, m2, hlong⟩ := long_entries conv N hN h hle L
  change _ = long at hlong
  obtain ⟨lm, hlm⟩ : ∃ lm, lm = M.filter fun e => L ≤ e.2.length := ⟨_, rfl⟩
  rw [← hlm] at hlong
  have hll : lm.length = long.length := by rw [← hlong, List.length_map]
  have hpos : 0 < long.length := List.length_pos_iff.2 hne
  obtain ⟨n, hn⟩ : ∃ n, n = long.length := ⟨_, rfl⟩
  rw [← hn] at hpos hll
  suffices H : shareOf (fun o : (Fin B → Fin n) × (Fin B → Fin D) =>
          decide (∀ j < min n B, (windowOf L (sampleEpisodes (pick o.1) (pickInt o.2) b L B) j).any (p j) = true)) =
        ∏ j ∈ Finset.range (min n B), meanShare L (p j) long by
    subst hn; exact H
  subst hll
  haveI : Nonempty (Fin lm.length) := ⟨⟨0, hpos⟩⟩
  haveI : Nonempty (Fin D) := ⟨⟨0, hD⟩⟩
  let Q : Nat → Fin lm.length × Fin D → Bool := fun j x => p j ((lm[x.1].2.drop (x.2.val % (lm[x.1].2.length - L + 1))).take L)
  have e : (fun o : (Fin B → Fin lm.length) × (Fin B → Fin D) =>
      decide (∀ j < min lm.length B, (windowOf L (sampleEpisodes (pick o.1) (pickInt o.2) b L B) j).any (p j) = true)) =
      fun o => (fun g : Fin B → Fin lm.length × Fin D => decide (∀ j : Fin B, j.val < min lm.length B → Q j (g j) = true)) ((Equiv.arrowProdEquivProdArrow (Fin B) (fun _ => Fin lm.length) (fun _ => Fin D)).symm o) := by
    funext o
    rw [decide_eq_decide]
    constructor
    · intro H j hj
      have := H j.val hj
      rw [window_eq m3 m2 L hL lm hlm B o.1 o.2 j.val j.isLt j.isLt (by omega)] at this
      exact this
    · intro H j hj
      have hB : j < B := by omega
      rw [window_eq m3 m2 L hL lm hlm B o.1 o.2 j hB hB (by omega)]
      exact H ⟨j, hB⟩ hj
  rw [e, shareOf_equiv _ (fun g : Fin B → Fin lm.length × Fin D => decide (∀ j : Fin B, j.val < min lm.length B → Q j (g j) = true)), shareOf_first (by omega) Q]
  apply Finset.prod_congr rfl
  intro j hj
  have hj' := Finset.mem_range.1 hj
  have key := share_windows m3 m2 L hL lm hlm lm.length rfl B D hD
    (fun e he => hdiv e.2 (by rw [← hlong]; exact List.mem_map.2 ⟨e, he, rfl⟩))
    (fun f : Fin B → Fin lm.length => f) j (by omega) (by omega) (by omega) (fun i i' => fibers_choice _ i i') (p j)
  rw [hlong] at key
  rw [← key]
  have hB : j < B := by omega
  have e2 : (fun o : (Fin B → Fin lm.length) × (Fin B → Fin D) => (windowOf L (sampleEpisodes (pick o.1) (pickInt o.2) b L B) j).any (p j)) =
      fun o => (fun g : Fin B → Fin lm.length × Fin D => decide (∀ i : Fin B, (fun (i : Fin B) x => if i = ⟨j, hB⟩ then Q j x else true) i (g i) = true))
        ((Equiv.arrowProdEquivProdArrow (Fin B) (fun _ => Fin lm.length) (fun _ => Fin D)).symm o) := by
    funext o
    rw [window_eq m3 m2 L hL lm hlm B o.1 o.2 j hB hB (by omega)]
    rw [Bool.eq_iff_iff, decide_eq_true_eq]
    constructor
    · intro H i
      by_cases hi : i = ⟨j, hB⟩
      · subst hi; simpa [Q] using H
      · simp [hi]
    · intro H
      have := H ⟨j, hB⟩
      simpa [Q] using this
  rw [e2, shareOf_equiv _ (fun g : Fin B → Fin lm.length × Fin D => decide (∀ i : Fin B, (fun (i : Fin B) x => if i = ⟨j, hB⟩ then Q j x else true) i (g i) = true)),
    shareOf_pi (fun (i : Fin B) x => if i = ⟨j, hB⟩ then Q j x else true)]
  rw [Finset.prod_eq_single (⟨j, hB⟩ : Fin B)]
  · simp
  · intro i _ hi
    simp [hi, shareOf_true]
  · intro h; simp at h

/-- Items used in the example: `0` is an invalid item. -/
abbrev uniConv : Nat → Except Err Nat := fun x => if x = 0 then .error .value else .ok x

/-- With windows of two steps, a window of the episode of three steps is picked half as often as the only one of the episode of two. -/
example : ((Replay.Spec.keep 6 (Replay.Spec.accepted uniConv [[1, 2], [4], [6, 7, 8]])).filter fun ep => 2 ≤ ep.length) = [[1, 2], [6, 7, 8]] ∧
    meanShare 2 (fun w => w == [6, 7]) [[1, 2], [6, 7, 8]] = 1 / 4 ∧ meanShare 2 (fun w => w == [1, 2]) [[1, 2], [6, 7, 8]] = 1 / 2 ∧
    (∀ ep ∈ [[1, 2], [6, 7, 8]], (ep.length - 2 + 1) ∣ 2) := by
  refine ⟨by decide, by decide +kernel, by decide +kernel, by decide⟩

end Machin.Rnn
