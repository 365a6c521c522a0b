import Verif.Replay.Count

/-!
# C214: sampling is uniform

An outcome of `random.choices(pop, k=k)` is an index into the population for each place, an outcome of `random.sample(pop, k=k)` is a permutation of the
population of which the first `k` are returned; all outcomes are equally likely.
-/

namespace Machin.Replay

open Spec

/-- `random.choices` under an outcome. -/
def drawChoices {K n : Nat} (f : Fin K → Fin n) (pop : List Nat) (k : Nat) : List Nat := (List.ofFn fun j => pop.getD (f j) 0).take k

/-- `random.sample` under an outcome. -/
def drawSample {n : Nat} (f : Equiv.Perm (Fin n)) (pop : List Nat) (k : Nat) : List Nat := (List.ofFn fun j => pop.getD (f j) 0).take k

/-- Row `j` of the batch. -/
def rowOf {τ : Type} (r : Except Err (Nat × List τ)) (j : Nat) : Option τ :=
  match r with
  | .error _ => none
  | .ok (_, l) => l[j]?

/-- The transitions of the batch. -/
def rowsOf {τ : Type} (r : Except Err (Nat × List τ)) : List τ :=
  match r with
  | .error _ => []
  | .ok (_, l) => l

theorem draw_fetch {τ : Type} {b : Buffer τ} {live : List τ} (hkeys : b.ten.keys.map (fun k => b.storage.data[k]?) = live.map some) {K : Nat}
    (f : Fin K → Fin live.length) (k : Nat) :
    b.fetch ((List.ofFn fun j => b.ten.keys.getD (f j) 0).take k) = .ok ((List.ofFn fun j => live[f j]).take k) := by
  apply fetch_eq
  rw [List.map_take, List.map_take]
  congr 1
  apply List.ext_getElem?
  intro j
  rw [List.getElem?_map, List.getElem?_map, List.getElem?_ofFn, List.getElem?_ofFn]
  split
  · next hj =>
    have hl : b.ten.keys.length = live.length := by simpa using congrArg List.length hkeys
    have hi := (f ⟨j, hj⟩).isLt
    have := congrArg (fun l => l[(f ⟨j, hj⟩).val]?) hkeys
    simp only [List.getElem?_map] at this
    rw [List.getElem?_eq_getElem hi, List.getElem?_eq_getElem (by omega : (f ⟨j, hj⟩).val < b.ten.keys.length)] at this
    simp only [Option.map_some, Option.some.injEq] at this
    simp only [Option.map_some, Option.some.injEq, List.getD_eq_getElem?_getD]
    rw [List.getElem?_eq_getElem (by omega : (f ⟨j, hj⟩).val < b.ten.keys.length)]
    exact this
  · rfl

/-- C214: after any history of stores, every row of a batch of `random` is each live transition with the same probability; rows with some property appear
as often as they do among the live transitions. -/
theorem C214_random {ι τ : Type} (conv : ι → Except Err τ) (N : Nat) (hN : 1 ≤ N) (h : List (List ι)) (hle : ∀ ep ∈ h, ep.length ≤ N) (B j : Nat)
    (p : τ → Bool) :
    let b := (Buffer.new τ N).run conv h
    let live := (keep N (accepted conv h)).flatten
    j < min live.length B →
      shareOf (fun f : Fin B → Fin live.length => (rowOf (b.sampleRandom (drawChoices f) B) j).any p) = (live.countP p : ℚ) / live.length := by
  intro b live hj
  have hb := run_inv conv h _ _ (BInv.new τ hN) hle
  rw [List.nil_append] at hb
  obtain ⟨-, hkeys, -, hlen⟩ := hb.read
  change b.ten.length = live.length at hlen
  change b.ten.keys.map (fun k => b.storage.data[k]?) = live.map some at hkeys
  have hB : j < B := by omega
  have e : (fun f : Fin B → Fin live.length => (rowOf (b.sampleRandom (drawChoices f) B) j).any p) = fun f => (fun i : Fin live.length => p live[i]) (f ⟨j, hB⟩) := by
    funext f
    simp only [Buffer.sampleRandom, drawChoices, hlen, draw_fetch hkeys]
    simp [rowOf, List.getElem?_take, hB, hj]
  rw [e]
  haveI : Nonempty (Fin B → Fin live.length) := ⟨fun _ => ⟨0, by omega⟩⟩
  rw [shareOf_fibers (fun f : Fin B → Fin live.length => f ⟨j, hB⟩) (fun i i' => fibers_choice _ i i') (fun i : Fin live.length => p live[i]), card_countP]

/-- C214: the same for `random_unique`. -/
theorem C214_unique {ι τ : Type} (conv : ι → Except Err τ) (N : Nat) (hN : 1 ≤ N) (h : List (List ι)) (hle : ∀ ep ∈ h, ep.length ≤ N) (B j : Nat)
    (p : τ → Bool) :
    let b := (Buffer.new τ N).run conv h
    let live := (keep N (accepted conv h)).flatten
    j < min live.length B →
      shareOf (fun f : Equiv.Perm (Fin live.length) => (rowOf (b.sampleRandomUnique (drawSample f) B) j).any p) = (live.countP p : ℚ) / live.length := by
  intro b live hj
  have hb := run_inv conv h _ _ (BInv.new τ hN) hle
  rw [List.nil_append] at hb
  obtain ⟨-, hkeys, -, hlen⟩ := hb.read
  change b.ten.length = live.length at hlen
  change b.ten.keys.map (fun k => b.storage.data[k]?) = live.map some at hkeys
  have hl : j < live.length := by omega
  have e : (fun f : Equiv.Perm (Fin live.length) => (rowOf (b.sampleRandomUnique (drawSample f) B) j).any p) =
      fun f => (fun i : Fin live.length => p live[i]) (f ⟨j, hl⟩) := by
    funext f
    simp only [Buffer.sampleRandomUnique, drawSample, hlen, draw_fetch hkeys]
    have : j < B := by omega
    simp [rowOf, List.getElem?_take, hl, this]
  rw [e, shareOf_fibers (fun f : Equiv.Perm (Fin live.length) => f ⟨j, hl⟩) (fun i i' => fibers_perm _ i i') (fun i : Fin live.length => p live[i]), card_countP]

/-- C214: if the live transitions are different, each of them is in a batch of `random_unique` with probability batch size / number of live ones. -/
theorem C214_included {ι τ : Type} [DecidableEq τ] (conv : ι → Except Err τ) (N : Nat) (hN : 1 ≤ N) (h : List (List ι)) (hle : ∀ ep ∈ h, ep.length ≤ N) (B : Nat)
    (x : τ) :
    let b := (Buffer.new τ N).run conv h
    let live := (keep N (accepted conv h)).flatten
    live.Nodup → x ∈ live →
      shareOf (fun f : Equiv.Perm (Fin live.length) => decide (x ∈ rowsOf (b.sampleRandomUnique (drawSample f) B))) =
        (min live.length B : Nat) / (live.length : ℚ) := by
  intro b live hnd hx
  have hb := run_inv conv h _ _ (BInv.new τ hN) hle
  rw [List.nil_append] at hb
  obtain ⟨-, hkeys, -, hlen⟩ := hb.read
  change b.ten.length = live.length at hlen
  change b.ten.keys.map (fun k => b.storage.data[k]?) = live.map some at hkeys
  obtain ⟨i, hi, rfl⟩ := List.getElem_of_mem hx
  have e : (fun f : Equiv.Perm (Fin live.length) => decide (live[i] ∈ rowsOf (b.sampleRandomUnique (drawSample f) B))) =
      fun f => (fun a : Fin live.length => decide (a.val < min live.length B)) (f.symm ⟨i, hi⟩) := by
    funext f
    simp only [Buffer.sampleRandomUnique, drawSample, hlen, draw_fetch hkeys]
    rw [decide_eq_decide]
    simp only [rowsOf, List.mem_take_iff_getElem, List.length_ofFn, List.getElem_ofFn]
    constructor
    · rintro ⟨a, ha, he⟩
      have : f ⟨a, by omega⟩ = ⟨i, hi⟩ := Fin.ext ((List.Nodup.getElem_inj_iff hnd).1 he)
      rw [← this]
      simp
      omega
    · intro ha
      refine ⟨(f.symm ⟨i, hi⟩).val, by omega, ?_⟩
      simp
  rw [e, shareOf_fibers (fun f : Equiv.Perm (Fin live.length) => f.symm ⟨i, hi⟩) (fun i i' => fibers_perm_symm _ i i')
    (fun a : Fin live.length => decide (a.val < min live.length B)), card_lt (by omega)]

/-- C214: the rows of a batch of `random` are drawn independently: properties asked of all rows hold together with the product of their probabilities. -/
theorem C214_independent {ι τ : Type} (conv : ι → Except Err τ) (N : Nat) (hN : 1 ≤ N) (h : List (List ι)) (hle : ∀ ep ∈ h, ep.length ≤ N) (B : Nat)
    (p : Nat → τ → Bool) :
    let b := (Buffer.new τ N).run conv h
    let live := (keep N (accepted conv h)).flatten
    live ≠ [] →
      shareOf (fun f : Fin B → Fin live.length => decide (∀ j < min live.length B, (rowOf (b.sampleRandom (drawChoices f) B) j).any (p j) = true)) =
        ∏ j ∈ Finset.range (min live.length B), (live.countP (p j) : ℚ) / live.length := by
  intro b live hne
  have hb := run_inv conv h _ _ (BInv.new τ hN) hle
  rw [List.nil_append] at hb
  obtain ⟨-, hkeys, -, hlen⟩ := hb.read
  change b.ten.length = live.length at hlen
  change b.ten.keys.map (fun k => b.storage.data[k]?) = live.map some at hkeys
  have hpos : 0 < live.length := List.length_pos_iff.2 hne
  haveI : Nonempty (Fin live.length) := ⟨⟨0, hpos⟩⟩
  have e : (fun f : Fin B → Fin live.length => decide (∀ j < min live.length B, (rowOf (b.sampleRandom (drawChoices f) B) j).any (p j) = true)) =
      fun f => decide (∀ j : Fin B, j.val < min live.length B → (fun (j : Nat) (i : Fin live.length) => p j live[i]) j (f j) = true) := by
    funext f
    rw [decide_eq_decide]
    have hrow : ∀ j (hj : j < min live.length B), (rowOf (b.sampleRandom (drawChoices f) B) j).any (p j) = p j live[f ⟨j, by omega⟩] := by
      intro j hj
      have hB : j < B := by omega
      simp only [Buffer.sampleRandom, drawChoices, hlen, draw_fetch hkeys]
      simp [rowOf, List.getElem?_take, hB, hj]
    constructor
    · intro H j hj
      have := H j.val hj
      rw [hrow j.val hj] at this
      exact this
    · intro H j hj
      rw [hrow j hj]
      exact H ⟨j, by omega⟩ hj
  rw [e, shareOf_first (by omega) (fun (j : Nat) (i : Fin live.length) => p j live[i])]
  apply Finset.prod_congr rfl
  intro j _
  unfold shareOf
  rw [card_countP, Fintype.card_fin]

/-- Items used in the examples: `0` is an invalid item. -/
abbrev uniConv : Nat → Except Err Nat := fun x => if x = 0 then .error .value else .ok x

/-- Three of the five live transitions are even; a batch of three rows contains the transition 7 with probability 3/5. -/
example : (keep 5 (accepted uniConv [[1, 2], [3, 0], [4, 6], [5], [7, 8]])).flatten = [4, 6, 5, 7, 8] ∧ [4, 6, 5, 7, 8].countP (fun x => x % 2 == 0) = 3 ∧
    [4, 6, 5, 7, 8].Nodup := by decide

end Machin.Replay
