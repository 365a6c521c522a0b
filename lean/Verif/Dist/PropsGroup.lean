import Verif.Dist.LemmasGroup
import Verif.Dist.Props
import Mathlib.Tactic.Positivity

/-! # C235: when sampling from a distributed prioritized buffer succeeds -/

namespace Machin.Dist

open Replay Prio

/-- The priorities of the transitions a member holds, together. -/
def total {τ : Type} (b : DPBuffer τ) : ℚ := ∑ i ∈ Finset.range b.base.buf.size, b.base.tree.weights.getD i 0

/-- The members of the group after any legal histories. -/
def GroupOk {ι τ : Type} (conv : ι → Except Err τ) (norm : ℚ → ℚ) (pw : ℚ → ℚ → ℚ) (ms : List (String × DPBuffer τ)) : Prop :=
  (∀ p, 0 < norm p) ∧ ∀ m ∈ ms, ∃ (N : Nat) (beta inc : ℚ), 2 ≤ N ∧ DReach conv norm pw N beta inc m.2

/-- C235, full statement: a batch can be sampled whenever some member holds a transition. -/
def C235_full : Prop :=
  ∀ (ι τ : Type) (conv : ι → Except Err τ) (norm : ℚ → ℚ) (pw : ℚ → ℚ → ℚ) (ms : List (String × DPBuffer τ)), GroupOk conv norm pw ms →
    (∃ m ∈ ms, 0 < m.2.base.buf.size) → ∀ (B : Nat) (draws : Nat → Nat → ℚ), 1 ≤ B → (∀ j i, 0 ≤ draws j i ∧ draws j i < 1) →
      ∃ c, groupSample pw ms B draws = .ok (some c)

theorem weightSum_total {τ : Type} {N : Nat} {b : DPBuffer τ} (h : PInv N b.base) : b.base.tree.weightSum = total b := h.total_stored.symm

theorem total_pos {τ : Type} {N : Nat} {b : DPBuffer τ} (h : PInv N b.base) (hne : 0 < b.base.buf.size) : 0 < total b :=
  Finset.sum_pos (fun i hi => h.posw i (Finset.mem_range.1 hi)) ⟨0, by simpa using hne⟩

theorem total_nonneg {τ : Type} {N : Nat} {b : DPBuffer τ} (h : PInv N b.base) : 0 ≤ total b :=
  Finset.sum_nonneg (fun i hi => (h.posw i (Finset.mem_range.1 hi)).le)

theorem total_empty {τ : Type} {b : DPBuffer τ} (hne : ¬ 0 < b.base.buf.size) : total b = 0 := by
  have : b.base.buf.size = 0 := by omega
  simp [total, this]

theorem zip_map_self {α β : Type} (l : List α) (f : α → β) : l.zip (l.map f) = l.map fun a => (a, f a) := by
  induction l with
  | nil => rfl
  | cons a l ih => simp [ih]

theorem waitAll_type {α : Type} : ∀ (l : List (Except Err α)), (∀ x ∈ l, x = .error .type ∨ ∃ r, x = .ok r) → .error .type ∈ l → waitAll l = .error .type := by
  intro l
  induction l with
  | nil => intro _ h; cases h
  | cons x l ih =>
    intro hx hm
    rcases hx x (by simp) with rfl | ⟨r, rfl⟩
    · rfl
    · have hm' : Except.error Err.type ∈ l := by
        rcases List.mem_cons.1 hm with h | h
        · cases h
        · exact h
      simp only [waitAll, ih (fun y hy => hx y (by simp [hy])) hm']

theorem mapIdx_ok {α β : Type} {P : α → β → Prop} : ∀ (l : List α) (f : Nat → α → Except Err β), (∀ j, ∀ a ∈ l, ∃ r, f j a = .ok r ∧ P a r) →
    ∃ rs : List β, l.mapIdx f = rs.map .ok ∧ List.Forall₂ P l rs := by
  intro l
  induction l with
  | nil => intro f _; exact ⟨[], rfl, List.Forall₂.nil⟩
  | cons a l ih =>
    intro f h
    obtain ⟨r, h1, h2⟩ := h 0 a (by simp)
    obtain ⟨rs, h3, h4⟩ := ih (fun j => f (j + 1)) (fun j x hx => h (j + 1) x (by simp [hx]))
    exact ⟨r :: rs, by rw [List.mapIdx_cons, h1, h3]; rfl, List.Forall₂.cons h2 h4⟩

theorem collect_len {τ : Type} : ∀ (l : List (String × SampleRes τ)) (acc : Collected τ), (∀ p ∈ l, p.2.batch.length = p.2.len) →
    (collect l acc).len = acc.len + (l.map (·.2.len)).sum ∧ (collect l acc).batch.length = acc.batch.length + (l.map (·.2.len)).sum := by
  intro l
  induction l with
  | nil => intro acc _; simp [collect]
  | cons p l ih =>
    intro acc h
    obtain ⟨m, r⟩ := p
    unfold collect
    by_cases h0 : r.len = 0
    · rw [if_pos h0]
      obtain ⟨h1, h2⟩ := ih acc (fun q hq => h q (by simp [hq]))
      exact ⟨by rw [h1]; simp [h0], by rw [h2]; simp [h0]⟩
    · rw [if_neg h0]
      obtain ⟨h1, h2⟩ := ih ⟨acc.len + r.len, acc.batch ++ r.batch, acc.index.set m (r.index, r.version), acc.isWeight ++ r.isWeight⟩
        (fun q hq => h q (by simp [hq]))
      have h3 := h (m, r) (by simp)
      simp only at h3
      refine ⟨by rw [h1]; simp; omega, by rw [h2]; simp [h3]; omega⟩

/-- What `groupSample` comes to. -/
theorem groupSample_eq {τ : Type} (pw : ℚ → ℚ → ℚ) (ms : List (String × DPBuffer τ)) (hw : ∀ m ∈ ms, ∃ N, PInv N m.2.base ∧ m.2.versions.length = N) (B : Nat) (hB : 1 ≤ B)
    (draws : Nat → Nat → ℚ) :
    let all := (ms.map fun m => total m.2).sum + 1 / 1000000
    groupSample pw ms B draws =
      match waitAll (ms.mapIdx fun j m => (m.2.sampleService pw ((List.range ⌈total m.2 * B / all⌉.toNat).map (draws j)) all).2) with
      | .error e => .error e
      | .ok rs =>
        let c := collect ((ms.map (·.1)).zip rs) ⟨0, [], [], []⟩
        if c.len = 0 then .ok none else .ok (some c) := by
  intro all
  have e : ms.map (·.2.base.tree.weightSum) = ms.map fun m => total m.2 := by
    apply List.map_congr_left
    intro m hm
    obtain ⟨N, h, -⟩ := hw m hm
    exact weightSum_total h
  have e2 : ms.zip (sampleSizes (ms.map fun m => total m.2) B) = ms.map fun m => (m, ⌈total m.2 * B / all⌉) := by
    simp only [sampleSizes, List.map_map]
    exact zip_map_self _ _
  have e3 : (ms.map fun m => (m, ⌈total m.2 * B / all⌉)).mapIdx (fun j p => (p.1.2.sampleService pw ((List.range p.2.toNat).map (draws j)) all).2) =
      ms.mapIdx fun j m => (m.2.sampleService pw ((List.range ⌈total m.2 * B / all⌉.toNat).map (draws j)) all).2 := by
    apply List.ext_getElem?
    intro j
    simp only [List.getElem?_mapIdx, List.getElem?_map, Option.map_map]
    rfl
  unfold groupSample
  rw [if_neg (by omega)]
  simp only [e, e2]
  change (match waitAll ((ms.map fun m => (m, ⌈total m.2 * B / all⌉)).mapIdx (fun j p => (p.1.2.sampleService pw ((List.range p.2.toNat).map (draws j)) all).2)) with
    | .error e => _
    | .ok rs => _) = _
  rw [e3]

/-- The number of transitions a member is asked for. -/
theorem asked {w S : ℚ} (hw : 0 ≤ w) (hS : 0 ≤ S) (B : Nat) (hB : 1 ≤ B) :
    (w = 0 → ⌈w * B / (S + 1 / 1000000)⌉ = 0) ∧ (0 < w → w * B ≤ S + 1 / 1000000 → ⌈w * B / (S + 1 / 1000000)⌉ = 1) ∧
      (S + 1 / 1000000 < w * B → 2 ≤ ⌈w * B / (S + 1 / 1000000)⌉) ∧ 0 ≤ ⌈w * B / (S + 1 / 1000000)⌉ := by
  have hall : (0 : ℚ) < S + 1 / 1000000 := by linarith
  have hB' : (1 : ℚ) ≤ B := by exact_mod_cast hB
  refine ⟨by rintro rfl; simp, ?_, ?_, Int.ceil_nonneg (by positivity)⟩
  · intro h1 h2
    rw [Int.ceil_eq_iff]
    constructor
    · push_cast
      have : 0 < w * B / (S + 1 / 1000000) := by positivity
      linarith
    · rw [div_le_iff₀ hall]; push_cast; linarith
  · intro h
    have : (1 : Int) < ⌈w * B / (S + 1 / 1000000)⌉ := by
      rw [Int.lt_ceil, lt_div_iff₀ hall]
      push_cast
      linarith
    omega

theorem GroupOk.inv {ι τ : Type} {conv : ι → Except Err τ} {norm : ℚ → ℚ} {pw : ℚ → ℚ → ℚ} {ms : List (String × DPBuffer τ)} (h : GroupOk conv norm pw ms) :
    ∀ m ∈ ms, ∃ N, PInv N m.2.base ∧ m.2.versions.length = N := by
  intro m hm
  obtain ⟨N, beta, inc, h2, hr⟩ := h.2 m hm
  exact ⟨N, hr.inv h2 h.1⟩

theorem sum_total_nonneg {ι τ : Type} {conv : ι → Except Err τ} {norm : ℚ → ℚ} {pw : ℚ → ℚ → ℚ} {ms : List (String × DPBuffer τ)} (h : GroupOk conv norm pw ms) :
    0 ≤ (ms.map fun m => total m.2).sum := by
  apply List.sum_nonneg
  intro x hx
  obtain ⟨m, hm, rfl⟩ := List.mem_map.1 hx
  obtain ⟨N, hi, -⟩ := h.inv m hm
  exact total_nonneg hi

/-- C235 is violated: the call raises `TypeError` whenever a member holds transitions, but no more than the `B`-th part of all priorities: it is asked for
exactly one transition, and its index is then a number that cannot be iterated (prioritized_buffer_d.py:301). -/
theorem C235_violated_light {ι τ : Type} (conv : ι → Except Err τ) (norm : ℚ → ℚ) (pw : ℚ → ℚ → ℚ) (ms : List (String × DPBuffer τ)) (hok : GroupOk conv norm pw ms)
    (B : Nat) (hB : 1 ≤ B) (draws : Nat → Nat → ℚ)
    (hl : ∃ m ∈ ms, 0 < m.2.base.buf.size ∧ total m.2 * B ≤ (ms.map fun m => total m.2).sum + 1 / 1000000) :
    groupSample pw ms B draws = .error .type := by
  have hS := sum_total_nonneg hok
  rw [groupSample_eq pw ms hok.inv B hB draws]
  simp only
  set S := (ms.map fun m => total m.2).sum
  have hone : ∀ (j : Nat) (m : String × DPBuffer τ), m ∈ ms → 0 < m.2.base.buf.size → total m.2 * B ≤ S + 1 / 1000000 →
      (m.2.sampleService pw ((List.range ⌈total m.2 * B / (S + 1 / 1000000)⌉.toNat).map (draws j)) (S + 1 / 1000000)).2 = .error .type := by
    intro j m hm h0 h1
    obtain ⟨N, hi, hv⟩ := hok.inv m hm
    rw [(asked (total_nonneg hi) hS B hB).2.1 (total_pos hi h0) h1]
    exact service_one pw hi hv h0 _ _
  have : waitAll (ms.mapIdx fun j m => (m.2.sampleService pw ((List.range ⌈total m.2 * B / (S + 1 / 1000000)⌉.toNat).map (draws j)) (S + 1 / 1000000)).2) = .error .type := by
    apply waitAll_type
    · intro x hx
      obtain ⟨j, hj, rfl⟩ := List.mem_mapIdx.1 hx
      have hm : ms[j] ∈ ms := List.getElem_mem hj
      obtain ⟨N, hi, hv⟩ := hok.inv _ hm
      by_cases h0 : 0 < ms[j].2.base.buf.size
      · by_cases h1 : total ms[j].2 * B ≤ S + 1 / 1000000
        · exact Or.inl (hone j _ hm h0 h1)
        · have h2 := (asked (total_nonneg hi) hS B hB).2.2.1 (by linarith : S + 1 / 1000000 < total ms[j].2 * B)
          obtain ⟨batch, version, ws, h3⟩ := service_pick pw hi hv h0
            ((List.range ⌈total ms[j].2 * B / (S + 1 / 1000000)⌉.toNat).map (draws j)) (S + 1 / 1000000) (by rw [List.length_map, List.length_range]; omega)
          exact Or.inr ⟨_, h3⟩
      · exact Or.inr ⟨_, service_none pw _ _ _ (Or.inr (by omega))⟩
    · obtain ⟨m, hm, h0, h1⟩ := hl
      obtain ⟨j, hj, rfl⟩ := List.getElem_of_mem hm
      exact List.mem_mapIdx.2 ⟨j, hj, hone j _ hm h0 h1⟩
  rw [this]

/-- C235: in particular, a batch that is not larger than the number of members that hold transitions can never be sampled. -/
theorem C235_violated_small {ι τ : Type} (conv : ι → Except Err τ) (norm : ℚ → ℚ) (pw : ℚ → ℚ → ℚ) (ms : List (String × DPBuffer τ)) (hok : GroupOk conv norm pw ms)
    (B : Nat) (hB : 1 ≤ B) (draws : Nat → Nat → ℚ) (hl : B ≤ ms.countP fun m => decide (0 < m.2.base.buf.size)) :
    groupSample pw ms B draws = .error .type := by
  apply C235_violated_light conv norm pw ms hok B hB draws
  by_contra hcon
  push Not at hcon
  have hS := sum_total_nonneg hok
  -- every non-empty member has more than the B-th part
  have key : ∀ l : List (String × DPBuffer τ), (∀ m ∈ l, m ∈ ms) → ∀ S : ℚ, 0 ≤ S → (∀ m ∈ l, 0 < m.2.base.buf.size → S < total m.2 * B) →
      (l.countP (fun m => decide (0 < m.2.base.buf.size)) : ℚ) * S ≤ (l.map fun m => total m.2).sum * B := by
    intro l
    induction l with
    | nil => intro _ S hS _; simp
    | cons m l ih =>
      intro hsub S hS hb
      have h1 := ih (fun x hx => hsub x (by simp [hx])) S hS (fun x hx => hb x (by simp [hx]))
      rw [List.countP_cons, List.map_cons, List.sum_cons]
      by_cases h0 : 0 < m.2.base.buf.size
      · have := hb m (by simp) h0
        simp only [h0, decide_true, if_true]
        push_cast
        nlinarith
      · obtain ⟨N, hi, -⟩ := hok.inv m (hsub m (by simp))
        have := total_nonneg hi
        simp only [h0, decide_false, Bool.false_eq_true, if_false]
        push_cast
        have hBn : (0 : ℚ) ≤ B := Nat.cast_nonneg _
        nlinarith
  have h1 := key ms (fun m hm => hm) ((ms.map fun m => total m.2).sum + 1 / 1000000) (by linarith) hcon
  have h2 : (B : ℚ) ≤ (ms.countP (fun m => decide (0 < m.2.base.buf.size)) : ℚ) := by exact_mod_cast hl
  have hB' : (1 : ℚ) ≤ B := by exact_mod_cast hB
  nlinarith

/-- C235, what does hold: if every member that holds transitions has more than the `B`-th part of all priorities and some member holds transitions, the call
returns a batch of `∑ ceil (w_m B / (S + 1e-6))` transitions. Missing: members with less (`C235_violated_light`: `TypeError`). -/
theorem C235_heavy_partial {ι τ : Type} (conv : ι → Except Err τ) (norm : ℚ → ℚ) (pw : ℚ → ℚ → ℚ) (ms : List (String × DPBuffer τ)) (hok : GroupOk conv norm pw ms)
    (hne : ∃ m ∈ ms, 0 < m.2.base.buf.size) (B : Nat) (hB : 1 ≤ B) (draws : Nat → Nat → ℚ) :
    let S := (ms.map fun m => total m.2).sum
    (∀ m ∈ ms, 0 < m.2.base.buf.size → S + 1 / 1000000 < total m.2 * B) →
      ∃ c, groupSample pw ms B draws = .ok (some c) ∧ c.batch.length = c.len ∧ (c.len : Int) = (ms.map fun m => ⌈total m.2 * B / (S + 1 / 1000000)⌉).sum := by
  intro S hb
  have hS : 0 ≤ S := sum_total_nonneg hok
  have hsvc : ∀ (j : Nat), ∀ m ∈ ms, ∃ r,
      (m.2.sampleService pw ((List.range ⌈total m.2 * B / (S + 1 / 1000000)⌉.toNat).map (draws j)) (S + 1 / 1000000)).2 = .ok r ∧
        ((r.len : Int) = ⌈total m.2 * B / (S + 1 / 1000000)⌉ ∧ r.batch.length = r.len) := by
    intro j m hm
    obtain ⟨N, hi, hv⟩ := hok.inv m hm
    by_cases h0 : 0 < m.2.base.buf.size
    · have h2 := (asked (total_nonneg hi) hS B hB).2.2.1 (hb m hm h0)
      obtain ⟨batch, version, ws, h3⟩ := service_pick pw hi hv h0
        ((List.range ⌈total m.2 * B / (S + 1 / 1000000)⌉.toNat).map (draws j)) (S + 1 / 1000000) (by rw [List.length_map, List.length_range]; omega)
      have h4 := sampleService_inv pw m.2 _ _ _ h3
      refine ⟨_, h3, ?_, h4.1.symm⟩
      simp only [List.length_map, List.length_range]
      omega
    · refine ⟨_, service_none pw _ _ _ (Or.inr (by omega)), ?_, rfl⟩
      rw [(asked (total_nonneg hi) hS B hB).1 (total_empty h0)]
      rfl
  obtain ⟨rs, h1, h2⟩ := mapIdx_ok (P := fun (m : String × DPBuffer τ) (r : SampleRes τ) => (r.len : Int) = ⌈total m.2 * B / (S + 1 / 1000000)⌉ ∧ r.batch.length = r.len) ms
    (fun j m => (m.2.sampleService pw ((List.range ⌈total m.2 * B / (S + 1 / 1000000)⌉.toNat).map (draws j)) (S + 1 / 1000000)).2) hsvc
  have hlens : ∀ (l : List (String × DPBuffer τ)) (rs : List (SampleRes τ)),
      List.Forall₂ (fun m r => (r.len : Int) = ⌈total m.2 * B / (S + 1 / 1000000)⌉ ∧ r.batch.length = r.len) l rs →
      (((((l.map (·.1)).zip rs).map (·.2.len)).sum : Nat) : Int) = (l.map fun m => ⌈total m.2 * B / (S + 1 / 1000000)⌉).sum ∧
        ∀ p ∈ (l.map (·.1)).zip rs, p.2.batch.length = p.2.len := by
    intro l rs h
    induction h with
    | nil => simp
    | cons hh _ ih =>
      refine ⟨?_, ?_⟩
      · simp only [List.map_cons, List.zip_cons_cons, List.sum_cons, Nat.cast_add]
        rw [hh.1, ih.1]
      · intro p hp
        simp only [List.map_cons, List.zip_cons_cons, List.mem_cons] at hp
        rcases hp with rfl | hp
        · exact hh.2
        · exact ih.2 p hp
  obtain ⟨h3, h4⟩ := hlens ms rs h2
  have hc := collect_len ((ms.map (·.1)).zip rs) ⟨0, [], [], []⟩ h4
  simp only [Nat.zero_add, List.length_nil] at hc
  have hpos : 0 < (ms.map fun m => ⌈total m.2 * B / (S + 1 / 1000000)⌉).sum := by
    obtain ⟨m, hm, h0⟩ := hne
    obtain ⟨N, hi, -⟩ := hok.inv m hm
    have h5 := (asked (total_nonneg hi) hS B hB).2.2.1 (hb m hm h0)
    have h6 : ⌈total m.2 * B / (S + 1 / 1000000)⌉ ≤ (ms.map fun m => ⌈total m.2 * B / (S + 1 / 1000000)⌉).sum := by
      apply List.single_le_sum
      · intro x hx
        obtain ⟨m', hm', rfl⟩ := List.mem_map.1 hx
        obtain ⟨N', hi', -⟩ := hok.inv m' hm'
        exact (asked (total_nonneg hi') hS B hB).2.2.2
      · exact List.mem_map.2 ⟨m, hm, rfl⟩
    omega
  refine ⟨collect ((ms.map (·.1)).zip rs) ⟨0, [], [], []⟩, ?_, by rw [hc.1, hc.2], by rw [hc.1]; exact h3⟩
  rw [groupSample_eq pw ms hok.inv B hB draws]
  change (match waitAll (ms.mapIdx fun j m => (m.2.sampleService pw ((List.range ⌈total m.2 * B / (S + 1 / 1000000)⌉.toNat).map (draws j)) (S + 1 / 1000000)).2) with
    | .error e => _
    | .ok rs => _) = _
  rw [h1, waitAll_ok]
  simp only
  rw [if_neg]
  rw [hc.1]
  omega

/-- C235: with empty members only the answer is `0, None, None, None`. -/
theorem C235_empty_partial {ι τ : Type} (conv : ι → Except Err τ) (norm : ℚ → ℚ) (pw : ℚ → ℚ → ℚ) (ms : List (String × DPBuffer τ)) (hok : GroupOk conv norm pw ms)
    (he : ∀ m ∈ ms, m.2.base.buf.size = 0) (B : Nat) (draws : Nat → Nat → ℚ) : groupSample pw ms B draws = .ok none := by
  by_cases hB : 1 ≤ B
  · rw [groupSample_eq pw ms hok.inv B hB draws]
    simp only
    obtain ⟨rs, h1, h2⟩ := mapIdx_ok (P := fun (_ : String × DPBuffer τ) (r : SampleRes τ) => r.len = 0 ∧ r.batch.length = r.len) ms
      (fun j m => (m.2.sampleService pw ((List.range ⌈total m.2 * B / ((ms.map fun m => total m.2).sum + 1 / 1000000)⌉.toNat).map (draws j))
        ((ms.map fun m => total m.2).sum + 1 / 1000000)).2)
      (fun j m hm => ⟨_, service_none pw _ _ _ (Or.inr (he m hm)), rfl, rfl⟩)
    rw [h1, waitAll_ok]
    simp only
    have hz : ∀ (l : List (String × DPBuffer τ)) (rs : List (SampleRes τ)), List.Forall₂ (fun _ r => r.len = 0 ∧ r.batch.length = r.len) l rs →
        (((l.map (·.1)).zip rs).map (·.2.len)).sum = 0 ∧ ∀ p ∈ (l.map (·.1)).zip rs, p.2.batch.length = p.2.len := by
      intro l rs h
      induction h with
      | nil => simp
      | cons hh _ ih =>
        refine ⟨by simp [hh.1, ih.1], ?_⟩
        intro p hp
        simp only [List.map_cons, List.zip_cons_cons, List.mem_cons] at hp
        rcases hp with rfl | hp
        · exact hh.2
        · exact ih.2 p hp
    obtain ⟨h3, h4⟩ := hz ms rs h2
    have hc := (collect_len ((ms.map (·.1)).zip rs) ⟨0, [], [], []⟩ h4).1
    rw [if_pos (by rw [hc, h3])]
  · simp [groupSample, show B = 0 by omega]

/-- A member with two transitions of the given TD errors. -/
def exPrio (a b : ℚ) : DPBuffer Nat := ((DPBuffer.new Nat 4 (2 / 5) (1 / 1000)).storeEpisode (fun x : Nat => .ok x) (fun p => |p| + 1 / 100) [7, 8] (some [a, b])).1

theorem exPrio_ok (ms : List (String × DPBuffer Nat)) (h : ∀ m ∈ ms, ∃ a b, m.2 = exPrio a b) :
    GroupOk (fun x : Nat => .ok x) (fun p => |p| + 1 / 100) (fun x _ => 1 / x) ms := by
  refine ⟨fun p => by positivity, ?_⟩
  intro m hm
  obtain ⟨a, b, e⟩ := h m hm
  refine ⟨4, 2 / 5, 1 / 1000, by decide, ?_⟩
  rw [e]
  exact DReach.store [7, 8] (some [a, b]) DReach.new (by decide) (by simp)

/-- One member, a batch of one. -/
theorem C235_violated : ¬ C235_full := by
  intro h
  have hok := exPrio_ok [("a", exPrio 1 2)] (fun m hm => ⟨1, 2, by rw [List.mem_singleton.1 hm]⟩)
  obtain ⟨c, hc⟩ := h Nat Nat _ _ _ _ hok ⟨("a", exPrio 1 2), by simp, by decide +kernel⟩ 1 (fun _ _ => 1 / 2) (by decide) (by intro _ _; norm_num)
  rw [C235_violated_small _ _ _ _ hok 1 (by decide) (fun _ _ => 1 / 2) (by decide +kernel)] at hc
  cases hc

/-- Two members, the second with few priorities: a batch of ten cannot be sampled. -/
example : groupSample (fun x _ => 1 / x) [("a", exPrio 9 9), ("b", exPrio 0 0)] 10 (fun _ _ => 1 / 2) = .error .type := by
  have hok := exPrio_ok [("a", exPrio 9 9), ("b", exPrio 0 0)] (by
    intro m hm
    simp only [List.mem_cons, List.not_mem_nil, or_false] at hm
    rcases hm with rfl | rfl
    · exact ⟨9, 9, rfl⟩
    · exact ⟨0, 0, rfl⟩)
  apply C235_violated_light _ _ _ _ hok 10 (by decide)
  refine ⟨("b", exPrio 0 0), by simp, by decide +kernel, ?_⟩
  decide +kernel

/-- Members of equal weight: the hypotheses of `C235_heavy_partial`. -/
example : let ms := [("a", exPrio 9 9), ("b", exPrio 9 9)]
    (∃ m ∈ ms, 0 < m.2.base.buf.size) ∧ ∀ m ∈ ms, 0 < m.2.base.buf.size → (ms.map fun m => total m.2).sum + 1 / 1000000 < total m.2 * (4 : Nat) := by
  decide +kernel

end Machin.Dist
