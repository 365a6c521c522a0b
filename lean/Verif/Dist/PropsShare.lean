import Verif.Dist.PropsGroup

/-! # C236: the shares of the transitions in batches of a distributed prioritized buffer -/

namespace Machin.Dist

open Replay Prio

/-- `f j u` is result `j` if draw `j` is `u`. Result `j` is `i` exactly when the draw falls into an interval, and the lengths of these intervals add up to `x`: the
expected number of occurrences of `i` among `n` results with independent uniform draws. -/
def Expects (f : Nat → ℚ → Nat) (n i : Nat) (x : ℚ) : Prop :=
  ∃ lo hi : Nat → ℚ, (∀ j, j < n → 0 ≤ lo j ∧ hi j ≤ 1 ∧ ∀ u, 0 < u → u < 1 → (f j u = i ↔ lo j < u ∧ u ≤ hi j)) ∧
    ∑ j ∈ Finset.range n, max 0 (hi j - lo j) = x

/-- The positions of the answer of a member are `f` of its draws. -/
def AnswersBy {τ : Type} (pw : ℚ → ℚ → ℚ) (b : DPBuffer τ) (n : Nat) (all : ℚ) (f : Nat → ℚ → Nat) : Prop :=
  ∀ draws : List ℚ, draws.length = n → (∀ u ∈ draws, 0 ≤ u ∧ u < 1) →
    ∃ r, (b.sampleService pw draws all).2 = .ok r ∧ r.len = n ∧ r.index = draws.mapIdx f

/-- C236, full statement: when sampling succeeds, every transition of the group is expected in the batch in proportion to its priority, with one factor for
the whole group. -/
def C236_full : Prop :=
  ∀ (ι τ : Type) (conv : ι → Except Err τ) (norm : ℚ → ℚ) (pw : ℚ → ℚ → ℚ) (ms : List (String × DPBuffer τ)), GroupOk conv norm pw ms →
    (∀ m ∈ ms, ∀ i, i < m.2.base.buf.size → 1 / 1000000 < m.2.base.tree.weights.getD i 0) → ∀ B : Nat, 1 ≤ B →
    let S := (ms.map fun m => total m.2).sum
    (∀ m ∈ ms, 0 < m.2.base.buf.size → S + 1 / 1000000 < total m.2 * B) →
    ∃ c : ℚ, ∀ m ∈ ms, 0 < m.2.base.buf.size → ∃ f,
      AnswersBy pw m.2 ⌈total m.2 * B / (S + 1 / 1000000)⌉.toNat (S + 1 / 1000000) f ∧
      ∀ i, i < m.2.base.buf.size → Expects f ⌈total m.2 * B / (S + 1 / 1000000)⌉.toNat i (c * m.2.base.tree.weights.getD i 0)

theorem interval_le {lo hi lo' hi' : ℚ} (h0 : 0 ≤ lo) (h1 : hi ≤ 1) (h : ∀ u, 0 < u → u < 1 → (lo < u ∧ u ≤ hi) → (lo' < u ∧ u ≤ hi')) :
    max 0 (hi - lo) ≤ max 0 (hi' - lo') := by
  by_cases hl : hi ≤ lo
  · rw [max_eq_left (by linarith)]; exact le_max_left _ _
  · push Not at hl
    have a : lo' ≤ lo := by
      by_contra hc
      push Not at hc
      have e1 := min_le_left ((lo + lo') / 2) ((lo + hi) / 2)
      have e2 := min_le_right ((lo + lo') / 2) ((lo + hi) / 2)
      have e3 : lo < min ((lo + lo') / 2) ((lo + hi) / 2) := lt_min (by linarith) (by linarith)
      have := (h (min ((lo + lo') / 2) ((lo + hi) / 2)) (by linarith) (by linarith) ⟨e3, by linarith⟩).1
      linarith
    have b : hi ≤ hi' := by
      by_contra hc
      push Not at hc
      have e1 := le_max_left ((hi + hi') / 2) ((lo + hi) / 2)
      have e2 := le_max_right ((hi + hi') / 2) ((lo + hi) / 2)
      have e3 : max ((hi + hi') / 2) ((lo + hi) / 2) < hi := max_lt (by linarith) (by linarith)
      have := (h (max ((hi + hi') / 2) ((lo + hi) / 2)) (by linarith) (by linarith) ⟨by linarith, by linarith⟩).2
      linarith
    exact max_le_max (le_refl _) (by linarith)

/-- The expected number is determined. -/
theorem Expects.unique {f : Nat → ℚ → Nat} {n i : Nat} {x y : ℚ} (hx : Expects f n i x) (hy : Expects f n i y) : x = y := by
  obtain ⟨lo, hi, h1, h2⟩ := hx
  obtain ⟨lo', hi', h3, h4⟩ := hy
  rw [← h2, ← h4]
  apply Finset.sum_congr rfl
  intro j hj
  obtain ⟨a1, a2, a3⟩ := h1 j (Finset.mem_range.1 hj)
  obtain ⟨b1, b2, b3⟩ := h3 j (Finset.mem_range.1 hj)
  apply le_antisymm
  · exact interval_le a1 a2 (fun u u0 u1 hu => (b3 u u0 u1).1 ((a3 u u0 u1).2 hu))
  · exact interval_le b1 b2 (fun u u0 u1 hu => (a3 u u0 u1).1 ((b3 u u0 u1).2 hu))

/-- The functions by which a member answers agree on draws in `(0, 1)`. -/
theorem AnswersBy.agree {τ : Type} {pw : ℚ → ℚ → ℚ} {b : DPBuffer τ} {n : Nat} {all : ℚ} {f g : Nat → ℚ → Nat} (hf : AnswersBy pw b n all f)
    (hg : AnswersBy pw b n all g) (j : Nat) (hj : j < n) (u : ℚ) (h0 : 0 < u) (h1 : u < 1) : f j u = g j u := by
  obtain ⟨r, a1, -, a3⟩ := hf (List.replicate n u) (by simp) (by intro v hv; rw [List.eq_of_mem_replicate hv]; exact ⟨h0.le, h1⟩)
  obtain ⟨r', b1, -, b3⟩ := hg (List.replicate n u) (by simp) (by intro v hv; rw [List.eq_of_mem_replicate hv]; exact ⟨h0.le, h1⟩)
  rw [a1] at b1
  cases b1
  have := congrArg (fun l => l[j]?) (a3.symm.trans b3)
  simpa [List.getElem?_mapIdx, hj] using this

theorem Expects.congr {f g : Nat → ℚ → Nat} {n i : Nat} {x : ℚ} (h : ∀ j, j < n → ∀ u, 0 < u → u < 1 → f j u = g j u) (hx : Expects f n i x) : Expects g n i x := by
  obtain ⟨lo, hi, h1, h2⟩ := hx
  refine ⟨lo, hi, ?_, h2⟩
  intro j hj
  obtain ⟨a1, a2, a3⟩ := h1 j hj
  exact ⟨a1, a2, fun u u0 u1 => by rw [← h j hj u u0 u1]; exact a3 u u0 u1⟩

theorem pick_expects {τ : Type} {N : Nat} {b : DPBuffer τ} (hinv : PInv N b.base) (hne : 0 < b.base.buf.size)
    (hbig : ∀ i, i < b.base.buf.size → 1 / 1000000 < b.base.tree.weights.getD i 0) (n : Nat) (h2 : 2 ≤ n) (i : Nat) (his : i < b.base.buf.size) :
    Expects (fun j u => pick b.base.tree (npClip (u * (b.base.tree.weightSum / n) + j * (b.base.tree.weightSum / n)) 0
        (max (b.base.tree.weightSum - 1 / 1000000) 0))) n i (n * (b.base.tree.weights.getD i 0 / total b)) := by
  have hi : i < N := by have := hinv.size_le; omega
  have hnn : ∀ i, i < N → 0 ≤ b.base.tree.weights.getD i 0 := by rw [← hinv.size]; exact hinv.nonneg
  have hNtot : prefixSum b.base.tree.weights N = b.base.tree.weightSum := by
    show ∑ m ∈ Finset.range N, b.base.tree.weights.getD m 0 = _
    rw [hinv.tree.weightSum_eq, hinv.size]
  have hW : 0 < b.base.tree.weightSum := by rw [weightSum_total hinv]; exact total_pos hinv hne
  have hn : (0 : ℚ) < n := by exact_mod_cast (by omega : 0 < n)
  have hseg : 0 < b.base.tree.weightSum / n := div_pos hW hn
  set seg := b.base.tree.weightSum / n with hs
  set a := prefixSum b.base.tree.weights i / seg with ha
  set c := prefixSum b.base.tree.weights (i + 1) / seg with hc
  have hS0 : 0 ≤ prefixSum b.base.tree.weights i := by
    have := prefixSum_mono_le hnn (Nat.zero_le i) (by omega)
    simpa [prefixSum] using this
  have hS1 : prefixSum b.base.tree.weights i ≤ prefixSum b.base.tree.weights (i + 1) := prefixSum_mono_le hnn (by omega) (by omega)
  have hS2 : prefixSum b.base.tree.weights (i + 1) ≤ b.base.tree.weightSum := by
    rw [← hNtot]; exact prefixSum_mono_le hnn (by omega) (le_refl _)
  have ha0 : 0 ≤ a := div_nonneg hS0 hseg.le
  have hac : a ≤ c := (div_le_div_iff_of_pos_right hseg).2 hS1
  have hWn : b.base.tree.weightSum / seg = n := by
    rw [hs]; field_simp
  have hcn : c ≤ n := by
    rw [← hWn]; exact (div_le_div_iff_of_pos_right hseg).2 hS2
  refine ⟨fun j => max 0 (a - j), fun j => min 1 (c - j), ?_, ?_⟩
  · intro j hj
    refine ⟨le_max_left _ _, min_le_left _ _, ?_⟩
    intro u hu0 hu1
    have hq : u * seg + j * seg = (u + j) * seg := by ring
    have hj' : (j : ℚ) + 1 ≤ n := by exact_mod_cast hj
    have hq0 : 0 < (u + j) * seg := mul_pos (add_pos_of_pos_of_nonneg hu0 (Nat.cast_nonneg _)) hseg
    have hq1 : (u + j) * seg ≤ b.base.tree.weightSum := by
      have : (u + j) * seg ≤ n * seg := mul_le_mul_of_nonneg_right (by linarith) hseg.le
      have e : n * seg = b.base.tree.weightSum := by rw [hs]; field_simp
      linarith
    have hp := pick_clip hinv hne hbig hq0 hq1
    simp only at hp ⊢
    rw [hq]
    have e1 : prefixSum b.base.tree.weights i < (u + j) * seg ↔ a - j < u := by
      rw [ha, sub_lt_iff_lt_add, div_lt_iff₀ hseg]
    have e2 : (u + j) * seg ≤ prefixSum b.base.tree.weights (i + 1) ↔ u ≤ c - j := by
      rw [hc, le_sub_iff_add_le, le_div_iff₀ hseg]
    rw [max_lt_iff, le_min_iff]
    constructor
    · intro h
      rw [h] at hp
      exact ⟨⟨hu0, e1.1 hp.2.1⟩, hu1.le, e2.1 hp.2.2⟩
    · rintro ⟨⟨-, h3⟩, -, h4⟩
      exact interval_unique hnn hp.1 hi hp.2.1 hp.2.2 (e1.2 h3) (e2.2 h4)
  · have : ∀ j ∈ Finset.range n, max 0 (min 1 (c - j) - max 0 (a - j)) = clamp01 (c - j) - clamp01 (a - j) :=
      fun j _ => clamp01_gap _ _ (by linarith)
    rw [Finset.sum_congr rfl this, Finset.sum_sub_distrib, clamp01_sum _ _ (le_trans ha0 hac), clamp01_sum _ _ ha0,
      min_eq_left hcn, min_eq_left (le_trans hac hcn), ← weightSum_total hinv, ha, hc, ← sub_div, prefixSum_succ, hs]
    field_simp
    ring

/-- C236, what does hold: a transition of priority `p` of a member with priorities `w` together is expected `ceil (w B / (S + 1e-6)) p / w` times: at least
`B p / (S + 1e-6)` times, its share, and less than `p / w` more. Missing: the common factor; the rounding up favours members with few priorities. -/
theorem C236_share_partial {ι τ : Type} (conv : ι → Except Err τ) (norm : ℚ → ℚ) (pw : ℚ → ℚ → ℚ) (ms : List (String × DPBuffer τ)) (hok : GroupOk conv norm pw ms)
    (hbig : ∀ m ∈ ms, ∀ i, i < m.2.base.buf.size → 1 / 1000000 < m.2.base.tree.weights.getD i 0) (B : Nat) (hB : 1 ≤ B) :
    let S := (ms.map fun m => total m.2).sum
    ∀ m ∈ ms, 0 < m.2.base.buf.size → S + 1 / 1000000 < total m.2 * B → ∃ f,
      AnswersBy pw m.2 ⌈total m.2 * B / (S + 1 / 1000000)⌉.toNat (S + 1 / 1000000) f ∧
      ∀ i, i < m.2.base.buf.size → ∃ x, Expects f ⌈total m.2 * B / (S + 1 / 1000000)⌉.toNat i x ∧
        x = ⌈total m.2 * B / (S + 1 / 1000000)⌉ * (m.2.base.tree.weights.getD i 0 / total m.2) ∧
        B * m.2.base.tree.weights.getD i 0 / (S + 1 / 1000000) ≤ x ∧
        x < B * m.2.base.tree.weights.getD i 0 / (S + 1 / 1000000) + m.2.base.tree.weights.getD i 0 / total m.2 := by
  intro S m hm h0 hb
  have hS : 0 ≤ S := sum_total_nonneg hok
  obtain ⟨N, hi, hv⟩ := hok.inv m hm
  have hask := asked (total_nonneg hi) hS B hB
  have h2 := hask.2.2.1 hb
  have hk : ((⌈total m.2 * B / (S + 1 / 1000000)⌉.toNat : Nat) : ℚ) = (⌈total m.2 * B / (S + 1 / 1000000)⌉ : ℚ) := by
    have := Int.toNat_of_nonneg hask.2.2.2
    exact_mod_cast congrArg (fun z : Int => (z : ℚ)) this
  set k := ⌈total m.2 * B / (S + 1 / 1000000)⌉.toNat with hkd
  have h2' : 2 ≤ k := by omega
  refine ⟨fun j u => pick m.2.base.tree (npClip (u * (m.2.base.tree.weightSum / k) + j * (m.2.base.tree.weightSum / k)) 0
        (max (m.2.base.tree.weightSum - 1 / 1000000) 0)), ?_, ?_⟩
  · intro draws hl _
    obtain ⟨batch, version, ws, h3⟩ := service_pick pw hi hv h0 draws (S + 1 / 1000000) (by omega)
    rw [hl] at h3
    exact ⟨_, h3, rfl, rfl⟩
  · intro i his
    refine ⟨_, pick_expects hi h0 (hbig m hm) k h2' i his, by rw [hk], ?_, ?_⟩
    · have hle := Int.le_ceil (total m.2 * B / (S + 1 / 1000000))
      rw [← hk] at hle
      have hw := total_pos hi h0
      have hp := hi.posw i his
      have : B * m.2.base.tree.weights.getD i 0 / (S + 1 / 1000000) = total m.2 * B / (S + 1 / 1000000) * (m.2.base.tree.weights.getD i 0 / total m.2) := by
        field_simp
      rw [this]
      exact mul_le_mul_of_nonneg_right hle (by positivity)
    · have hlt := Int.ceil_lt_add_one (total m.2 * B / (S + 1 / 1000000))
      rw [← hk] at hlt
      have hw := total_pos hi h0
      have hp := hi.posw i his
      have : B * m.2.base.tree.weights.getD i 0 / (S + 1 / 1000000) + m.2.base.tree.weights.getD i 0 / total m.2 =
          (total m.2 * B / (S + 1 / 1000000) + 1) * (m.2.base.tree.weights.getD i 0 / total m.2) := by
        field_simp
      rw [this]
      exact mul_lt_mul_of_pos_right hlt (by positivity)

/-- C236: members with equal sums of priorities draw with a common factor. -/
theorem C236_equal_partial {ι τ : Type} (conv : ι → Except Err τ) (norm : ℚ → ℚ) (pw : ℚ → ℚ → ℚ) (ms : List (String × DPBuffer τ)) (hok : GroupOk conv norm pw ms)
    (hbig : ∀ m ∈ ms, ∀ i, i < m.2.base.buf.size → 1 / 1000000 < m.2.base.tree.weights.getD i 0) (B : Nat) (hB : 1 ≤ B) (w : ℚ)
    (heq : ∀ m ∈ ms, 0 < m.2.base.buf.size → total m.2 = w) :
    let S := (ms.map fun m => total m.2).sum
    (∀ m ∈ ms, 0 < m.2.base.buf.size → S + 1 / 1000000 < total m.2 * B) →
    ∃ c : ℚ, ∀ m ∈ ms, 0 < m.2.base.buf.size → ∃ f,
      AnswersBy pw m.2 ⌈total m.2 * B / (S + 1 / 1000000)⌉.toNat (S + 1 / 1000000) f ∧
      ∀ i, i < m.2.base.buf.size → Expects f ⌈total m.2 * B / (S + 1 / 1000000)⌉.toNat i (c * m.2.base.tree.weights.getD i 0) := by
  intro S hb
  refine ⟨⌈w * B / (S + 1 / 1000000)⌉ / w, ?_⟩
  intro m hm h0
  obtain ⟨f, h1, h2⟩ := C236_share_partial conv norm pw ms hok hbig B hB m hm h0 (hb m hm h0)
  refine ⟨f, h1, fun i hi => ?_⟩
  obtain ⟨x, h3, h4, -⟩ := h2 i hi
  have e : ⌈w * B / (S + 1 / 1000000)⌉ / w * m.2.base.tree.weights.getD i 0 = x := by
    rw [h4, heq m hm h0]
    ring
  rw [e]
  exact h3

/-- Two members with equal sums of priorities that are spread differently: the hypotheses of `C236_equal_partial`. -/
example : let ms := [("a", exPrio 9 1), ("b", exPrio 5 5)]
    (∀ m ∈ ms, 0 < m.2.base.buf.size → total m.2 = 1002 / 100) ∧
      ∀ m ∈ ms, 0 < m.2.base.buf.size → (ms.map fun m => total m.2).sum + 1 / 1000000 < total m.2 * (4 : Nat) := by
  decide +kernel

/-- C236 is violated: with sums of priorities 202/100 and 82/100 and a batch of four, the members are asked for three and two transitions. -/
theorem C236_violated : ¬ C236_full := by
  intro h
  set ms := [("a", exPrio 1 1), ("b", exPrio (2 / 5) (2 / 5))] with hms
  have hok := exPrio_ok ms (by
    intro m hm
    simp only [hms, List.mem_cons, List.not_mem_nil, or_false] at hm
    rcases hm with rfl | rfl
    · exact ⟨1, 1, rfl⟩
    · exact ⟨2 / 5, 2 / 5, rfl⟩)
  have hbig : ∀ m ∈ ms, ∀ i, i < m.2.base.buf.size → 1 / 1000000 < m.2.base.tree.weights.getD i 0 := by
    intro m hm i hi
    simp only [hms, List.mem_cons, List.not_mem_nil, or_false] at hm
    rcases hm with rfl | rfl
    · have : ∀ i ∈ List.range (exPrio 1 1).base.buf.size, 1 / 1000000 < (exPrio 1 1).base.tree.weights.getD i 0 := by decide +kernel
      exact this i (List.mem_range.2 hi)
    · have : ∀ i ∈ List.range (exPrio (2 / 5) (2 / 5)).base.buf.size, 1 / 1000000 < (exPrio (2 / 5) (2 / 5)).base.tree.weights.getD i 0 := by decide +kernel
      exact this i (List.mem_range.2 hi)
  have hheavy : ∀ m ∈ ms, 0 < m.2.base.buf.size → (ms.map fun m => total m.2).sum + 1 / 1000000 < total m.2 * (4 : Nat) := by rw [hms]; decide +kernel
  obtain ⟨c, hc⟩ := h Nat Nat _ _ _ ms hok hbig 4 (by decide) hheavy
  have hS : (ms.map fun m => total m.2).sum = 284 / 100 := by rw [hms]; decide +kernel
  have hA : total (exPrio 1 1) = 202 / 100 := by decide +kernel
  have hB : total (exPrio (2 / 5) (2 / 5)) = 82 / 100 := by decide +kernel
  have hw1 : (exPrio 1 1).base.tree.weights.getD 0 0 = 101 / 100 := by decide +kernel
  have hw2 : (exPrio (2 / 5) (2 / 5)).base.tree.weights.getD 0 0 = 41 / 100 := by decide +kernel
  have key : ∀ m ∈ ms, 0 < m.2.base.buf.size →
      c * m.2.base.tree.weights.getD 0 0 = ⌈total m.2 * (4 : Nat) / ((ms.map fun m => total m.2).sum + 1 / 1000000)⌉ * (m.2.base.tree.weights.getD 0 0 / total m.2) := by
    intro m hm h0
    obtain ⟨f, h1, h2⟩ := hc m hm h0
    obtain ⟨g, h3, h4⟩ := C236_share_partial _ _ _ ms hok hbig 4 (by decide) m hm h0 (hheavy m hm h0)
    obtain ⟨x, h5, h6, -⟩ := h4 0 h0
    rw [← h6]
    exact Expects.unique (h2 0 h0) (h5.congr fun j hj u u0 u1 => AnswersBy.agree h3 h1 j hj u u0 u1)
  have k1 := key ("a", exPrio 1 1) (by simp [hms]) (by decide +kernel)
  have k2 := key ("b", exPrio (2 / 5) (2 / 5)) (by simp [hms]) (by decide +kernel)
  simp only [hS, hA, hB, hw1, hw2] at k1 k2
  have c1 : ⌈(202 / 100 : ℚ) * (4 : Nat) / (284 / 100 + 1 / 1000000)⌉ = 3 := by
    rw [Int.ceil_eq_iff]; norm_num
  have c2 : ⌈(82 / 100 : ℚ) * (4 : Nat) / (284 / 100 + 1 / 1000000)⌉ = 2 := by
    rw [Int.ceil_eq_iff]; norm_num
  rw [c1] at k1
  rw [c2] at k2
  norm_num at k1 k2
  linarith

end Machin.Dist
