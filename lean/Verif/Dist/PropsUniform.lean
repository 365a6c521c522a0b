import Verif.Dist.Mean
import Verif.Dist.Props

/-!
# C234: sampling from a distributed uniform buffer and the uniform distribution over the group

An outcome of `random` is an outcome of `random.choices` at every member, an outcome of `random_unique` one of `random.sample` at every member
(see `Replay.drawChoices`, `Replay.drawSample`); the generators of the members are independent.
-/

namespace Machin.Dist

open Replay

/-- What a member has stored: the size of its buffer and the episodes. -/
structure Held (ι : Type) where
  N : Nat
  hist : List (List ι)

/-- The live transitions. -/
def Held.live {ι τ : Type} (conv : ι → Except Err τ) (m : Held ι) : List τ := (Replay.Spec.keep m.N (Replay.Spec.accepted conv m.hist)).flatten

/-- A buffer of positive size that was given episodes that fit and holds at least one transition. -/
def Held.Ok {ι τ : Type} (conv : ι → Except Err τ) (m : Held ι) : Prop := 1 ≤ m.N ∧ (∀ ep ∈ m.hist, ep.length ≤ m.N) ∧ m.live conv ≠ []

/-- The transitions `sample_batch` returns. -/
def batchRows {τ : Type} : Except Err (Nat × Option (List τ)) → List τ
  | .ok (_, some l) => l
  | _ => []

/-- The batch of `random` under an outcome. -/
def randomBatch {ι τ : Type} (conv : ι → Except Err τ) {P : Nat} (ms : Fin P → Held ι) (B : Nat) (attrsGiven : Bool)
    (F : ∀ m : Fin P, Fin B → Fin ((ms m).live conv).length) : List τ :=
  batchRows (sampleBatch (List.ofFn fun m => ⟨(Buffer.new τ (ms m).N).run conv (ms m).hist, fun pop k => pop.take k, drawChoices (F m)⟩) B .random attrsGiven)

/-- The batch of `random_unique` under an outcome. -/
def uniqueBatch {ι τ : Type} (conv : ι → Except Err τ) {P : Nat} (ms : Fin P → Held ι) (B : Nat) (attrsGiven : Bool)
    (F : ∀ m : Fin P, Equiv.Perm (Fin ((ms m).live conv).length)) : List τ :=
  batchRows (sampleBatch (List.ofFn fun m => ⟨(Buffer.new τ (ms m).N).run conv (ms m).hist, drawSample (F m), fun pop k => pop.take k⟩) B .randomUnique attrsGiven)

/-- C234, full statement: the expected number of rows with some property is proportional to the number of transitions in the group that have it, so all
transitions in the group are equally likely to be drawn. -/
def C234_full : Prop :=
  ∀ (ι τ : Type) (conv : ι → Except Err τ) (P : Nat) (ms : Fin P → Held ι), (∀ m, (ms m).Ok conv) → ∀ (B : Nat) (attrsGiven : Bool),
    ∃ c : ℚ, ∀ p : τ → Bool,
      meanOf (fun F => ((randomBatch conv ms B attrsGiven F).countP p : ℚ)) = c * ∑ m, (((ms m).live conv).countP p : ℚ) ∧
      meanOf (fun F => ((uniqueBatch conv ms B attrsGiven F).countP p : ℚ)) = c * ∑ m, (((ms m).live conv).countP p : ℚ)

theorem localSize_le {B P : Nat} (hP : 1 ≤ P) : localSize B P ≤ B := by
  unfold localSize
  have : ⌈(B : ℚ) / P⌉ ≤ (B : Int) := by
    rw [Int.ceil_le]
    have hp : (1 : ℚ) ≤ P := by exact_mod_cast hP
    rw [div_le_iff₀ (by linarith)]
    push_cast
    have : (0 : ℚ) ≤ B := Nat.cast_nonneg _
    nlinarith
  omega

theorem batchRows_of {τ : Type} {P : Nat} (hP : 1 ≤ P) (ms : Fin P → Member τ) (B : Nat) (method : Method) (attrsGiven : Bool) (n : Fin P → Nat) (l : Fin P → List τ)
    (h : ∀ m, sampleService (ms m).sample (ms m).choices (ms m).buf (localSize B P) method = .ok (n m, l m)) (p : τ → Bool) :
    ((batchRows (sampleBatch (List.ofFn ms) B method attrsGiven)).countP p : ℚ) = ∑ m, ((l m).countP p : ℚ) := by
  have hr : (List.ofFn ms).map (fun m => sampleService m.sample m.choices m.buf (localSize B P) method) = (List.ofFn fun m => (n m, l m)).map .ok := by
    rw [List.map_ofFn, List.map_ofFn]
    congr 1
    funext m
    exact h m
  have hfl : ((List.ofFn fun m => (n m, l m)).map (·.2)).flatten = (List.ofFn l).flatten := by
    rw [List.map_ofFn]; rfl
  have e : batchRows (sampleBatch (List.ofFn ms) B method attrsGiven) = (List.ofFn l).flatten := by
    unfold sampleBatch
    rw [List.length_ofFn, if_neg (by omega)]
    simp only [hr, waitAll_ok, hfl]
    by_cases h0 : (List.ofFn l).flatten = []
    · cases attrsGiven <;> simp [h0, batchRows]
    · simp [h0, batchRows]
  rw [e, List.countP_flatten, List.map_ofFn, List.sum_ofFn]
  push_cast
  rfl

theorem Held.pos {ι τ : Type} {conv : ι → Except Err τ} {m : Held ι} (h : m.Ok conv) : 0 < (m.live conv).length := List.length_pos_iff.2 h.2.2

theorem Held.keys {ι τ : Type} {conv : ι → Except Err τ} {m : Held ι} (h : m.Ok conv) :
    let b := (Buffer.new τ m.N).run conv m.hist
    b.ten.keys.map (fun k => b.storage.data[k]?) = (m.live conv).map some ∧ b.ten.length = (m.live conv).length := by
  intro b
  have hb := run_inv conv m.hist _ _ (BInv.new τ h.1) h.2.1
  rw [List.nil_append] at hb
  obtain ⟨-, hkeys, -, hlen⟩ := hb.read
  exact ⟨hkeys, hlen⟩

/-- C234, what does hold: of the rows with some property the batch has in expectation, member `m` contributes the number of its own rows,
`min (size m) (ceil (B / P))`, times the share of its transitions that have the property. Missing: members that hold different numbers of transitions. -/
theorem C234_random_partial {ι τ : Type} (conv : ι → Except Err τ) {P : Nat} (hP : 1 ≤ P) (ms : Fin P → Held ι) (hok : ∀ m, (ms m).Ok conv) (B : Nat) (attrsGiven : Bool)
    (p : τ → Bool) :
    meanOf (fun F => ((randomBatch conv ms B attrsGiven F).countP p : ℚ)) =
      ∑ m, (min ((ms m).live conv).length ⌈(B : ℚ) / P⌉.toNat : Nat) * ((((ms m).live conv).countP p : ℚ) / ((ms m).live conv).length) := by
  haveI : ∀ m : Fin P, Nonempty (Fin B → Fin ((ms m).live conv).length) := fun m => ⟨fun _ => ⟨0, Held.pos (hok m)⟩⟩
  refine meanOf_group (fun m : Fin P => Fin B → Fin ((ms m).live conv).length)
    (fun m f => (((List.ofFn fun j => ((ms m).live conv)[f j]).take (min ((ms m).live conv).length (localSize B P))).countP p : ℚ)) _ _ (fun F => ?_) (fun m => ?_)
  · refine batchRows_of hP _ B .random attrsGiven (fun m => min ((ms m).live conv).length (localSize B P)) _ (fun m => ?_) p
    obtain ⟨hkeys, hlen⟩ := Held.keys (hok m)
    simp only [sampleService, Buffer.sampleRandom, drawChoices, hlen, draw_fetch hkeys]
  · have hk : min ((ms m).live conv).length (localSize B P) ≤ B := by have := localSize_le (B := B) hP; omega
    exact mean_rows (Ω := Fin B → Fin ((ms m).live conv).length) ((ms m).live conv) p hk (fun f j => f j) (fun j i i' => fibers_choice j i i')

/-- C234: the same for `random_unique`. -/
theorem C234_unique_partial {ι τ : Type} (conv : ι → Except Err τ) {P : Nat} (hP : 1 ≤ P) (ms : Fin P → Held ι) (hok : ∀ m, (ms m).Ok conv) (B : Nat) (attrsGiven : Bool)
    (p : τ → Bool) :
    meanOf (fun F => ((uniqueBatch conv ms B attrsGiven F).countP p : ℚ)) =
      ∑ m, (min ((ms m).live conv).length ⌈(B : ℚ) / P⌉.toNat : Nat) * ((((ms m).live conv).countP p : ℚ) / ((ms m).live conv).length) := by
  refine meanOf_group (fun m : Fin P => Equiv.Perm (Fin ((ms m).live conv).length))
    (fun m f => (((List.ofFn fun j => ((ms m).live conv)[f j]).take (min ((ms m).live conv).length (localSize B P))).countP p : ℚ)) _ _ (fun F => ?_) (fun m => ?_)
  · refine batchRows_of hP _ B .randomUnique attrsGiven (fun m => min ((ms m).live conv).length (localSize B P)) _ (fun m => ?_) p
    obtain ⟨hkeys, hlen⟩ := Held.keys (hok m)
    simp only [sampleService, Buffer.sampleRandomUnique, drawSample, hlen, draw_fetch hkeys]
  · have hk : min ((ms m).live conv).length (localSize B P) ≤ ((ms m).live conv).length := by omega
    exact mean_rows (Ω := Equiv.Perm (Fin ((ms m).live conv).length)) ((ms m).live conv) p hk (fun f j => f j) (fun j i i' => fibers_perm j i i')

/-- C234: if all members hold `n` transitions, all transitions of the group are equally likely: each is expected `min n (ceil (B / P)) / n` times. -/
theorem C234_equal_partial {ι τ : Type} (conv : ι → Except Err τ) {P : Nat} (hP : 1 ≤ P) (ms : Fin P → Held ι) (hok : ∀ m, (ms m).Ok conv) (n : Nat)
    (hn : ∀ m, ((ms m).live conv).length = n) (B : Nat) (attrsGiven : Bool) (p : τ → Bool) :
    meanOf (fun F => ((randomBatch conv ms B attrsGiven F).countP p : ℚ)) =
        (min n ⌈(B : ℚ) / P⌉.toNat : Nat) / (n : ℚ) * ∑ m, (((ms m).live conv).countP p : ℚ) ∧
      meanOf (fun F => ((uniqueBatch conv ms B attrsGiven F).countP p : ℚ)) =
        (min n ⌈(B : ℚ) / P⌉.toNat : Nat) / (n : ℚ) * ∑ m, (((ms m).live conv).countP p : ℚ) := by
  rw [C234_random_partial conv hP ms hok, C234_unique_partial conv hP ms hok, and_self, Finset.mul_sum]
  refine Finset.sum_congr rfl fun m _ => ?_
  rw [hn m]
  ring

/-- C234: the same if every member holds at most `ceil (B / P)` transitions: then each is expected once. -/
theorem C234_small_partial {ι τ : Type} (conv : ι → Except Err τ) {P : Nat} (hP : 1 ≤ P) (ms : Fin P → Held ι) (hok : ∀ m, (ms m).Ok conv) (B : Nat)
    (hB : ∀ m, ((ms m).live conv).length ≤ ⌈(B : ℚ) / P⌉.toNat) (attrsGiven : Bool) (p : τ → Bool) :
    meanOf (fun F => ((randomBatch conv ms B attrsGiven F).countP p : ℚ)) = ∑ m, (((ms m).live conv).countP p : ℚ) ∧
      meanOf (fun F => ((uniqueBatch conv ms B attrsGiven F).countP p : ℚ)) = ∑ m, (((ms m).live conv).countP p : ℚ) := by
  rw [C234_random_partial conv hP ms hok, C234_unique_partial conv hP ms hok, and_self]
  refine Finset.sum_congr rfl fun m _ => ?_
  rw [Nat.min_eq_left (hB m)]
  have : (((ms m).live conv).length : ℚ) ≠ 0 := by exact_mod_cast (Held.pos (hok m)).ne'
  field_simp

/-- Member 0 holds one transition, member 1 two. -/
def exHeld : Fin 2 → Held Nat := fun m => if m = 0 then ⟨4, [[1]]⟩ else ⟨4, [[2, 3]]⟩

/-- Every item is a transition. -/
def exKeep : Nat → Except Err Nat := .ok

theorem exHeld_live0 : (exHeld 0).live exKeep = [1] := by decide +kernel
theorem exHeld_live1 : (exHeld 1).live exKeep = [2, 3] := by decide +kernel

theorem exHeld_ok : ∀ m, (exHeld m).Ok exKeep := by
  rw [Fin.forall_fin_two]
  refine ⟨⟨by decide, by decide, ?_⟩, ⟨by decide, by decide, ?_⟩⟩
  · rw [exHeld_live0]; simp
  · rw [exHeld_live1]; simp

/-- C234 is violated: the only transition of a member is in every batch of two, each of the two transitions of the other in every second one. -/
theorem C234_violated_sizes :
    meanOf (fun F => ((randomBatch exKeep exHeld 2 true F).countP (· == 1) : ℚ)) = 1 ∧
      meanOf (fun F => ((randomBatch exKeep exHeld 2 true F).countP (· == 2) : ℚ)) = 1 / 2 := by
  have h1 : ⌈((2 : Nat) : ℚ) / ((2 : Nat) : ℚ)⌉.toNat = 1 := by norm_num
  rw [C234_random_partial exKeep (by decide) exHeld exHeld_ok, C234_random_partial exKeep (by decide) exHeld exHeld_ok, Fin.sum_univ_two, Fin.sum_univ_two, h1]
  simp only [exHeld_live0, exHeld_live1]
  constructor <;> norm_num

theorem C234_violated : ¬ C234_full := by
  intro h
  obtain ⟨c, hc⟩ := h Nat Nat exKeep 2 exHeld exHeld_ok 2 true
  have h1 := (hc (· == 1)).1
  have h2 := (hc (· == 2)).1
  rw [C234_violated_sizes.1, Fin.sum_univ_two, exHeld_live0, exHeld_live1] at h1
  rw [C234_violated_sizes.2, Fin.sum_univ_two, exHeld_live0, exHeld_live1] at h2
  norm_num at h1 h2
  rw [← h1] at h2
  norm_num at h2

/-- Two members with two transitions each: the hypotheses of `C234_equal_partial`. -/
example : ∃ ms : Fin 2 → Held Nat, (∀ m, (ms m).Ok exKeep) ∧ (∀ m, ((ms m).live exKeep).length = 2) ∧
    meanOf (fun F => ((randomBatch exKeep ms 2 true F).countP (· == 2) : ℚ)) = 1 / 2 := by
  refine ⟨fun m => if m = 0 then ⟨4, [[1, 2]]⟩ else ⟨4, [[3, 4]]⟩, ?_, ?_, ?_⟩
  · rw [Fin.forall_fin_two]
    exact ⟨⟨by decide, by decide, by decide +kernel⟩, ⟨by decide, by decide, by decide +kernel⟩⟩
  · rw [Fin.forall_fin_two]; decide +kernel
  · rw [(C234_equal_partial exKeep (by decide) _ _ 2 _ 2 true _).1, Fin.sum_univ_two]
    · have h1 : ⌈((2 : Nat) : ℚ) / ((2 : Nat) : ℚ)⌉.toNat = 1 := by norm_num
      have h2 : ((Held.live exKeep (⟨4, [[1, 2]]⟩ : Held Nat)).countP (· == 2)) = 1 := by decide +kernel
      have h3 : ((Held.live exKeep (⟨4, [[3, 4]]⟩ : Held Nat)).countP (· == 2)) = 0 := by decide +kernel
      rw [h1]
      rw [if_pos rfl, if_neg (by decide), h2, h3]
      norm_num
    · rw [Fin.forall_fin_two]
      exact ⟨⟨by decide, by decide, by decide +kernel⟩, ⟨by decide, by decide, by decide +kernel⟩⟩
    · rw [Fin.forall_fin_two]; decide +kernel

end Machin.Dist
