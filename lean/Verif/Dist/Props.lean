import Verif.Dist.Lemmas
import Verif.Replay.Props
import Verif.Prio.Props

/-! # Properties C16-C19: distributed buffers -/

namespace Machin.Dist

open Replay Prio

/-- C16, full statement: along every history, the update service changes exactly the sampled entries that no store has
written in between. -/
def C16_full : Prop :=
  ∀ (ι τ : Type) (conv : ι → Except Err τ) (norm : ℚ → ℚ) (pw : ℚ → ℚ → ℚ) (N : Nat) (beta inc : ℚ), 2 ≤ N →
    ∀ (W₀ : List Nat) (T₀ : Nat) (b₀ : DPBuffer τ),
    LaterAny conv norm pw N (DPBuffer.new τ N beta inc) 0 W₀ T₀ b₀ →
    ∀ (draws : List ℚ) (all : ℚ) (r : SampleRes τ), (b₀.sampleService pw draws all).2 = .ok r →
    ∀ (W : List Nat) (T : Nat) (b : DPBuffer τ), LaterAny conv norm pw N (b₀.sampleService pw draws all).1 T₀ W T b →
    ∀ ps : List ℚ, ps.length = r.index.length → ∀ i, i < N → i ∈ W →
      (b.updateService norm ps r.index r.version).1.base.tree.leafWeight [(i : Int)] = b.base.tree.leafWeight [(i : Int)]

/-- A member used in the examples: capacity 4, two transitions stored. -/
abbrev exMember : DPBuffer Nat := ((DPBuffer.new Nat 4 (2 / 5) (1 / 1000)).storeEpisode Prio.exConv exNorm [1, 2] none).1

/-- What sampling that member with two draws returns. -/
abbrev exRes : SampleRes Nat := ⟨2, [1, 2], [0, 1], [1, 1], [1, 1 / 2]⟩

theorem exSample : (exMember.sampleService exPow [1 / 2, 1 / 2] (3 / 100)).2 = .ok exRes := by decide +kernel

/-- C16 is violated by a clear: versions restart at 0, so an entry stored after the clear gets the version the old entry
had, and the late update changes its priority. -/
theorem C16_violated : ¬ C16_full := by
  intro h
  have := h Nat Nat Prio.exConv exNorm exPow 4 (2 / 5) (1 / 1000) (by decide) _ _ exMember
    (LaterAny.store [1, 2] none LaterAny.refl) [1 / 2, 1 / 2] (3 / 100) exRes exSample _ _ _
    (LaterAny.store [3, 4] none (LaterAny.clear LaterAny.refl)) [7, 8] (by decide) 0 (by decide) (by decide +kernel)
  revert this
  decide +kernel

/-- C16 is also violated by a store that is rejected for its length: it overwrites the data without a new version. -/
theorem C16_violated_too_long : ¬ C16_full := by
  intro h
  have := h Nat Nat Prio.exConv exNorm exPow 4 (2 / 5) (1 / 1000) (by decide) _ _ exMember
    (LaterAny.store [1, 2] none LaterAny.refl) [1 / 2, 1 / 2] (3 / 100) exRes exSample _ _ _
    (LaterAny.store [3, 4, 5, 6, 7] none LaterAny.refl) [7, 8] (by decide) 0 (by decide) (by decide +kernel)
  revert this
  decide +kernel

/-- C16 is also violated by a store with fewer priorities than items: `zip` leaves the last positions unversioned. -/
theorem C16_violated_short_priorities : ¬ C16_full := by
  intro h
  have := h Nat Nat Prio.exConv exNorm exPow 4 (2 / 5) (1 / 1000) (by decide) _ _ exMember
    (LaterAny.store [1, 2] none LaterAny.refl) [1 / 2, 1 / 2] (3 / 100) exRes exSample _ _ _
    (LaterAny.store [3, 4, 5] (some [1, 1]) LaterAny.refl) [7, 8] (by decide) 0 (by decide) (by decide +kernel)
  revert this
  decide +kernel

/-- C16, what does hold: along every history of legal stores, samplings and priority updates (no clear), the service
succeeds; entries not sampled, or written by a store since the sampling, keep their priority; every other sampled entry
gets the (last) priority sent for it. Missing: clears, stores that raise for their length, stores with too few
priorities. -/
theorem C16_versioned_update_partial {ι τ : Type} (conv : ι → Except Err τ) (norm : ℚ → ℚ) (pw : ℚ → ℚ → ℚ) (N : Nat)
    (beta inc : ℚ) (h2 : 2 ≤ N) {W₀ : List Nat} {T₀ : Nat} {b₀ : DPBuffer τ}
    (h₀ : Later conv norm pw N (DPBuffer.new τ N beta inc) 0 W₀ T₀ b₀) (draws : List ℚ) (all : ℚ) (r : SampleRes τ)
    (hr : (b₀.sampleService pw draws all).2 = .ok r) {W : List Nat} {T : Nat} {b : DPBuffer τ}
    (h : Later conv norm pw N (b₀.sampleService pw draws all).1 T₀ W T b) (ps : List ℚ)
    (hp : ps.length = r.index.length) :
    let res := b.updateService norm ps r.index r.version
    res.2 = .ok () ∧
    (∀ i, i < N → (i ∉ r.index ∨ i ∈ W) →
      res.1.base.tree.leafWeight [(i : Int)] = b.base.tree.leafWeight [(i : Int)]) ∧
    (∀ (j i : Nat) (p : ℚ), r.index[j]? = some i → ps[j]? = some p → i ∉ W → (∀ j', j < j' → r.index[j']? ≠ some i) →
      res.1.base.tree.leafWeight [(i : Int)] = .ok (.scalar (norm p))) := by
  intro res
  obtain ⟨hi₀, -⟩ := h₀.inv h2 (DInv.new τ (by omega) beta inc)
  obtain ⟨c, hc⟩ := sampleService_state pw b₀ draws all
  have hi₁ : DInv N T₀ (b₀.sampleService pw draws all).1 := by
    rw [hc]; exact ⟨hi₀.store, hi₀.maps, hi₀.tree, hi₀.size, hi₀.vlen⟩
  obtain ⟨hi, hv⟩ := h.inv h2 hi₁
  obtain ⟨-, -, -, hver, hidx⟩ := sampleService_inv pw b₀ draws all r hr
  have hidx' : ∀ i ∈ r.index, i < N := by rw [← hi₀.vlen]; exact hidx
  have hv0 : ∀ i, b.versions.getD i 0 = b₀.versions.getD i 0 + W.count i := by
    intro i; rw [hv i, hc]
  obtain ⟨k1, -, k3, k4⟩ := updateService_ok norm hi ps r.index r.version hp hidx'
  have hmask : ((r.index.map fun i => b.versions.getD i 0).zip r.version).map (fun p => p.1 == p.2) =
      r.index.map (fun i => b.versions.getD i 0 == b₀.versions.getD i 0) := by
    rw [hver]
    generalize r.index = l
    induction l with
    | nil => rfl
    | cons a l ih => simp only [List.map_cons, List.zip_cons_cons, ih]
  have hleaf : ∀ (t : WeightTree), TInv t → ∀ i, i < t.size →
      t.leafWeight [(i : Int)] = .ok (.scalar (t.weights.getD i 0)) := by
    intro t ht i hit
    exact leafWeight_ok ht [i] (by intro j hj; have : j = i := by simpa using hj
                                   omega)
  have hg : ∀ i, i ∈ W → (b.versions.getD i 0 == b₀.versions.getD i 0) = false := by
    intro i hiW
    have := List.count_pos_iff.2 hiW
    rw [hv0 i]
    simp; omega
  have hg' : ∀ i, i ∉ W → (b.versions.getD i 0 == b₀.versions.getD i 0) = true := by
    intro i hiW
    rw [hv0 i, List.count_eq_zero_of_not_mem hiW]
    simp
  have hsz : (b.updateService norm ps r.index r.version).1.base.tree.size = N := k1.size
  refine ⟨k3, ?_, ?_⟩
  · intro i hiN hor
    rw [hleaf _ k1.tree i (by omega), hleaf _ hi.tree i (by rw [hi.size]; exact hiN), k4 i hiN, hmask,
      masked_zip norm _ _ _ hp,
      foldl_filtered norm (fun i => b.versions.getD i 0 == b₀.versions.getD i 0)]
    rcases hor with hni | hW
    · rw [foldl_not_mem _ _ _ _ (by rw [List.map_fst_zip (by omega)]; exact hni)]
      simp
    · rw [hg i hW]; simp
  · intro j i p hj hjp hW hlast
    have hiN := hidx' i (List.mem_of_getElem? hj)
    rw [hleaf _ k1.tree i (by omega), k4 i hiN, hmask, masked_zip norm _ _ _ hp,
      foldl_filtered norm (fun i => b.versions.getD i 0 == b₀.versions.getD i 0), hg' i hW,
      if_pos rfl, foldl_last norm i _ _ _ j p hj hjp hlast hp]

example : Later Prio.exConv exNorm exPow 4 (DPBuffer.new Nat 4 (2 / 5) (1 / 1000)) 0 [0, 1] 2 exMember ∧
    (exMember.sampleService exPow [1 / 2, 1 / 2] (3 / 100)).2 = .ok exRes ∧
    Later Prio.exConv exNorm exPow 4 (exMember.sampleService exPow [1 / 2, 1 / 2] (3 / 100)).1 2 [2, 3, 0] 5
      ((exMember.sampleService exPow [1 / 2, 1 / 2] (3 / 100)).1.storeEpisode Prio.exConv exNorm [3, 4, 5] none).1 :=
  ⟨Later.store [1, 2] none Later.refl (by decide) (by simp), exSample,
    Later.store [3, 4, 5] none Later.refl (by decide) (by simp)⟩

/-- C17. Whatever the members' states and draws: if all services answer, the batch is the concatenation of the members'
batches, and with one priority per transition `update_priority` cuts the priorities into pieces `pss` that line up with
those batches and sends each contributing member its own piece, with its own indexes and versions; members that returned
nothing get no call. -/
theorem C17_priority_split {τ : Type} (pw : ℚ → ℚ → ℚ) (ms : List (String × DPBuffer τ × List ℚ × ℚ))
    (hnd : (ms.map (·.1)).Nodup) (rs : List (SampleRes τ))
    (hrs : ms.map (fun m => (m.2.1.sampleService pw m.2.2.1 m.2.2.2).2) = rs.map .ok) (ps : List ℚ) :
    let c := collect ((ms.map (·.1)).zip rs) ⟨0, [], [], []⟩
    let contrib := ((ms.map (·.1)).zip rs).filter (fun p => p.2.len ≠ 0)
    ps.length = c.len →
    c.batch = (contrib.map (·.2.batch)).flatten ∧ c.batch.length = c.len ∧
    ∃ pss : List (List ℚ), pss.flatten = ps ∧ pss.map List.length = contrib.map (·.2.batch.length) ∧
      updateCalls ps c.index 0 = (contrib.zip pss).map fun x => (x.1.1, x.2, x.1.2.index, x.1.2.version) := by
  intro c contrib hlen
  have hrl : rs.length = ms.length := by
    have := congrArg List.length hrs; simpa using this.symm
  have hfst : ((ms.map (·.1)).zip rs).map (·.1) = ms.map (·.1) := List.map_fst_zip (by simp [hrl])
  have hok : ∀ r ∈ rs, r.len = r.batch.length ∧ r.index.length = r.batch.length := by
    intro r hr
    have : Except.ok r ∈ ms.map (fun m => (m.2.1.sampleService pw m.2.2.1 m.2.2.2).2) := by
      rw [hrs]; exact List.mem_map.2 ⟨r, hr, rfl⟩
    obtain ⟨m, -, hm⟩ := List.mem_map.1 this
    obtain ⟨h1, h2, -⟩ := sampleService_inv pw _ _ _ r hm
    exact ⟨h1, h2⟩
  have hcmem : ∀ p ∈ contrib, p.2.len = p.2.batch.length ∧ p.2.index.length = p.2.batch.length := by
    intro p hp
    exact hok p.2 (List.of_mem_zip (List.mem_filter.1 hp).1).2
  have hc := collect_append ((ms.map (·.1)).zip rs) (⟨0, [], [], []⟩ : Collected τ) (by rw [hfst]; exact hnd)
    (by intro m _; simp [PyDict.keys])
  simp only [List.nil_append, Nat.zero_add] at hc
  have hbl : (contrib.map (·.2.len)) = contrib.map (·.2.batch.length) :=
    List.map_congr_left fun p hp => (hcmem p hp).1
  have hcl : c.len = (contrib.map (·.2.batch.length)).sum := by
    rw [← hbl]; exact congrArg Collected.len hc
  have hcb : c.batch = (contrib.map (·.2.batch)).flatten := congrArg Collected.batch hc
  have hci : c.index = contrib.map (fun p => (p.1, (p.2.index, p.2.version))) := congrArg Collected.index hc
  refine ⟨hcb, ?_, ?_⟩
  · rw [hcb, hcl, List.length_flatten, List.map_map]; rfl
  · obtain ⟨pss, h1, h3⟩ := exists_pieces (contrib.map (·.2.batch.length)) ps (by omega)
    refine ⟨pss, h1, h3, ?_⟩
    have := updateCalls_eq c.index ps [] pss (by simp [h1]) (by
      rw [h3, hci, List.map_map]
      exact List.map_congr_left fun p hp => (hcmem p hp).2.symm)
    rw [List.length_nil] at this
    rw [this, hci, List.zip_map_left, List.map_map]
    rfl

example : (([("a", exMember, [1 / 2, 1 / 2], 3 / 100), ("b", DPBuffer.new Nat 4 1 0, [], 0)] :
      List (String × DPBuffer Nat × List ℚ × ℚ)).map (fun m => (m.2.1.sampleService exPow m.2.2.1 m.2.2.2).2)) =
    [exRes, ⟨0, [], [], [], []⟩].map .ok := by decide +kernel

/-- C18. The numbers of samples asked of the members. -/
theorem C18_proportional_split (weights : List ℚ) (hw : ∀ w ∈ weights, 0 ≤ w) (B : Nat) :
    let S := weights.sum
    let eps : ℚ := 1 / 1000000
    (sampleSizes weights B).length = weights.length ∧
    (∀ (i : Nat) (w : ℚ) (n : Int), weights[i]? = some w → (sampleSizes weights B)[i]? = some n →
      w * B / (S + eps) ≤ n ∧ (n : ℚ) < w * B / (S + eps) + 1 ∧ (w = 0 → n = 0) ∧
      (0 < S → (n : ℚ) < w * B / S + 1)) ∧
    B * (S / (S + eps)) ≤ ((sampleSizes weights B).sum : ℚ) ∧
    (weights ≠ [] → ((sampleSizes weights B).sum : ℚ) < B + weights.length) := by
  intro S eps
  have hS : 0 ≤ S := List.sum_nonneg hw
  have hpos : 0 < S + eps := by have : (0 : ℚ) < eps := by norm_num [eps]
                                linarith
  have hsum : ∀ l : List ℚ, (l.map fun w => w * B / (S + eps)).sum = B * (l.sum / (S + eps)) := by
    intro l
    induction l with
    | nil => simp
    | cons a l ih => rw [List.map_cons, List.sum_cons, ih, List.sum_cons]; ring
  have hlo : ∀ l : List ℚ, (l.map fun w => w * B / (S + eps)).sum ≤
      (((l.map fun w => ⌈w * B / (S + eps)⌉).sum : Int) : ℚ) := by
    intro l
    induction l with
    | nil => simp
    | cons a l ih =>
      rw [List.map_cons, List.sum_cons, List.map_cons, List.sum_cons]
      push_cast
      have := Int.le_ceil (a * B / (S + eps))
      linarith
  have hhi : ∀ l : List ℚ, (((l.map fun w => ⌈w * B / (S + eps)⌉).sum : Int) : ℚ) ≤
      (l.map fun w => w * B / (S + eps)).sum + l.length ∧ (l ≠ [] →
      (((l.map fun w => ⌈w * B / (S + eps)⌉).sum : Int) : ℚ) < (l.map fun w => w * B / (S + eps)).sum + l.length) := by
    intro l
    induction l with
    | nil => simp
    | cons a l ih =>
      rw [List.map_cons, List.sum_cons, List.map_cons, List.sum_cons, List.length_cons]
      push_cast
      have := Int.ceil_lt_add_one (a * B / (S + eps))
      refine ⟨by linarith [ih.1], fun _ => by linarith [ih.1]⟩
  have hfrac : S / (S + eps) ≤ 1 := by
    rw [div_le_one hpos]
    have : (0 : ℚ) < eps := by norm_num [eps]
    linarith
  refine ⟨by simp [sampleSizes], ?_, ?_, ?_⟩
  · intro i w n hi hn
    have hn' : n = ⌈w * B / (S + eps)⌉ := by
      simp only [sampleSizes, List.getElem?_map, hi, Option.map_some, Option.some.injEq] at hn
      exact hn.symm
    subst hn'
    refine ⟨Int.le_ceil _, Int.ceil_lt_add_one _, ?_, ?_⟩
    · rintro rfl; simp
    · intro hS0
      have h1 := Int.ceil_lt_add_one (w * B / (S + eps))
      have hwn := hw w (List.mem_of_getElem? hi)
      have h3 : w * B / (S + eps) ≤ w * B / S := by
        apply div_le_div_of_nonneg_left (mul_nonneg hwn (Nat.cast_nonneg _)) hS0
        have : (0 : ℚ) < eps := by norm_num [eps]
        linarith
      linarith
  · have := hlo weights
    rw [hsum] at this
    exact this
  · intro hne
    have := (hhi weights).2 hne
    rw [hsum] at this
    have hB : (B : ℚ) * (S / (S + eps)) ≤ B := by
      have := mul_le_mul_of_nonneg_left hfrac (Nat.cast_nonneg B : (0 : ℚ) ≤ B)
      linarith
    exact lt_of_lt_of_le this (by linarith)

example : ∀ w ∈ [(1 : ℚ), 0, 5 / 2], 0 ≤ w := by decide +kernel
example : sampleSizes [1, 0, 5 / 2] 10 = [3, 0, 8] := by decide +kernel

/-- What a sample of at most `k` items from the live transitions may be, per sample method. -/
def SampleOf {τ : Type} (method : Method) (k : Nat) (live l : List τ) : Prop :=
  match method with
  | .randomUnique => ∃ q : List τ, q.Perm live ∧ l = q.take (min live.length k)
  | .random => l.length = min live.length k ∧ ∀ x ∈ l, x ∈ live
  | .all => l = live

/-- A member of the group given by its capacity, its history of stores and its random generator. -/
structure MemberHist (ι : Type) where
  N : Nat
  hist : List (List ι)
  sample : List Nat → Nat → List Nat
  choices : List Nat → Nat → List Nat

/-- A member with a legal history and generators that keep the library contract. -/
def MemberHist.Ok {ι : Type} (m : MemberHist ι) : Prop :=
  1 ≤ m.N ∧ (∀ ep ∈ m.hist, ep.length ≤ m.N) ∧ SampleContract m.sample ∧ ChoicesContract m.choices

/-- The live transitions of a member. -/
def MemberHist.live {ι τ : Type} (conv : ι → Except Err τ) (m : MemberHist ι) : List τ :=
  (Replay.Spec.keep m.N (Replay.Spec.accepted conv m.hist)).flatten

/-- The member process after its history. -/
def MemberHist.state {ι τ : Type} (conv : ι → Except Err τ) (m : MemberHist ι) : Member τ :=
  ⟨(Buffer.new τ m.N).run conv m.hist, m.sample, m.choices⟩

/-- C19, full statement. -/
def C19_full : Prop :=
  ∀ (ι τ : Type) (conv : ι → Except Err τ) (ms : List (MemberHist ι)), ms ≠ [] → (∀ m ∈ ms, m.Ok) →
    ∀ (B : Nat) (method : Method) (attrsGiven : Bool),
    ∃ ls : List (List τ), List.Forall₂ (fun m l => SampleOf method (localSize B ms.length) (m.live conv) l) ms ls ∧
      sampleBatch (ms.map (·.state conv)) B method attrsGiven =
        .ok (ls.flatten.length, if ls.flatten = [] then none else some ls.flatten)

/-- C19 is violated: without `sample_attrs`, sampling when all members are empty raises `IndexError`. -/
theorem C19_violated : ¬ C19_full := by
  intro h
  obtain ⟨ls, -, h2⟩ := h Nat Nat Prio.exConv [⟨3, [], fun pop k => pop.take k, fun pop k => pop.take k⟩] (by simp)
    (by
      intro m hm
      obtain rfl : m = _ := by simpa using hm
      exact ⟨by decide, by simp, fun pop k _ => ⟨pop, List.Perm.refl _, rfl⟩,
        fun pop k hk => ⟨by simp; omega, fun x hx => List.mem_of_mem_take hx⟩⟩) 5 .randomUnique false
  have : sampleBatch ([(⟨3, [], fun pop k => pop.take k, fun pop k => pop.take k⟩ : MemberHist Nat)].map
      (·.state Prio.exConv)) 5 .randomUnique false = .error .index := by decide +kernel
  rw [this] at h2
  cases h2

/-- C19, what does hold: the result is the concatenation in member order of legal samples of the members, of at most
`p * ceil(B/p) < B + p` transitions (except with method `all`), and `(0, None)` if nothing was sampled and `sample_attrs`
was given. Missing: nothing sampled and no `sample_attrs` (then `IndexError`, as stated last). -/
theorem C19_distributed_uniform_partial {ι τ : Type} (conv : ι → Except Err τ) (ms : List (MemberHist ι)) (hne : ms ≠ [])
    (hok : ∀ m ∈ ms, m.Ok) (B : Nat) (method : Method) (attrsGiven : Bool) :
    ∃ ls : List (List τ), List.Forall₂ (fun m l => SampleOf method (localSize B ms.length) (m.live conv) l) ms ls ∧
      (method ≠ .all → ls.flatten.length ≤ ms.length * localSize B ms.length) ∧
      ms.length * localSize B ms.length < B + ms.length ∧ B ≤ ms.length * localSize B ms.length ∧
      (attrsGiven = true ∨ ls.flatten ≠ [] → sampleBatch (ms.map (·.state conv)) B method attrsGiven =
        .ok (ls.flatten.length, if ls.flatten = [] then none else some ls.flatten)) ∧
      (attrsGiven = false → ls.flatten = [] → sampleBatch (ms.map (·.state conv)) B method attrsGiven = .error .index) := by
  have hp : 0 < ms.length := List.length_pos_iff.2 hne
  have hpq : (0 : ℚ) < ms.length := by exact_mod_cast hp
  set k := localSize B ms.length with hk
  have hceil : ((k : Nat) : ℚ) = (⌈(B : ℚ) / ms.length⌉ : ℚ) := by
    have h0 : 0 ≤ ⌈(B : ℚ) / ms.length⌉ := Int.ceil_nonneg (div_nonneg (Nat.cast_nonneg _) hpq.le)
    have : (k : Int) = ⌈(B : ℚ) / ms.length⌉ := by rw [hk]; unfold localSize; exact Int.toNat_of_nonneg h0
    exact_mod_cast this
  have hup : ms.length * k < B + ms.length := by
    have h1 := Int.ceil_lt_add_one ((B : ℚ) / ms.length)
    rw [← hceil] at h1
    have h3 : (ms.length : ℚ) * k < ms.length * ((B : ℚ) / ms.length + 1) := mul_lt_mul_of_pos_left h1 hpq
    rw [mul_add, mul_div_cancel₀ _ hpq.ne', mul_one] at h3
    exact_mod_cast h3
  have hlo : B ≤ ms.length * k := by
    have h1 := Int.le_ceil ((B : ℚ) / ms.length)
    rw [← hceil, div_le_iff₀ hpq] at h1
    have : (B : ℚ) ≤ ms.length * k := by linarith
    exact_mod_cast this
  -- every member answers
  have hone : ∀ m ∈ ms, ∃ l : List τ, SampleOf method k (m.live conv) l ∧
      sampleService (m.state conv).sample (m.state conv).choices (m.state conv).buf k method = .ok (l.length, l) := by
    intro m hm
    obtain ⟨h1, h3, h4, h5⟩ := hok m hm
    obtain ⟨⟨q, q1, q2⟩, ⟨l, l1, l2, l3⟩, a⟩ := C03_sampling conv m.N h1 m.hist h3 k m.sample m.choices h4 h5
    cases method with
    | randomUnique =>
      refine ⟨_, ⟨q, q1, rfl⟩, ?_⟩
      have hl : (q.take (min (m.live conv).length k)).length = min (m.live conv).length k := by
        rw [List.length_take, q1.length_eq]
        show min _ (List.length (MemberHist.live conv m)) = _
        omega
      rw [hl]
      exact q2
    | random => exact ⟨l, ⟨l1, l2⟩, by rw [l1]; exact l3⟩
    | all => exact ⟨_, rfl, a⟩
  have hall : ∃ ls : List (List τ), List.Forall₂ (fun m l => SampleOf method k (m.live conv) l) ms ls ∧
      (ms.map (·.state conv)).map (fun m => sampleService m.sample m.choices m.buf k method) =
        (ls.map fun l => (l.length, l)).map .ok := by
    clear hup hlo hceil hk hpq hp hne
    clear_value k
    induction ms with
    | nil => exact ⟨[], List.Forall₂.nil, rfl⟩
    | cons m ms ih =>
      obtain ⟨l, l1, l2⟩ := hone m (by simp)
      obtain ⟨ls, i1, i2⟩ := ih (fun m hm => hok m (by simp [hm])) (fun m hm => hone m (by simp [hm]))
      exact ⟨l :: ls, List.Forall₂.cons l1 i1, by simp only [List.map_cons, l2, i2]⟩
  obtain ⟨ls, hls, hres⟩ := hall
  have hsz : (ls.map fun l => (l.length, l)).map (·.1) = ls.map List.length := by simp [Function.comp_def]
  have hbt : (ls.map fun l => (l.length, l)).map (·.2) = ls := by simp [Function.comp_def]
  have hmain : sampleBatch (ms.map (·.state conv)) B method attrsGiven =
      if attrsGiven = false ∧ ls.flatten = [] then .error .index
      else .ok (ls.flatten.length, if ls.flatten = [] then none else some ls.flatten) := by
    have h0 : ¬ ms.length = 0 := by omega
    simp only [sampleBatch, List.length_map]
    rw [if_neg h0, ← hk, hres, waitAll_ok]
    simp only [hsz, hbt, List.length_flatten]
  refine ⟨ls, hls, ?_, hup, hlo, ?_, ?_⟩
  · intro hm
    clear hup hlo hceil hk hpq hp hne hone hres hsz hbt hmain
    clear_value k
    induction hls with
    | nil => simp
    | @cons m l ms' ls' h1 h3 ih =>
      have hl : l.length ≤ k := by
        cases method with
        | randomUnique => obtain ⟨q, -, rfl⟩ := h1; simp
        | random => rw [h1.1]; omega
        | all => exact absurd rfl hm
      have := ih (fun m hm => hok m (by simp [hm]))
      rw [List.flatten_cons, List.length_append, List.length_cons, Nat.add_mul, Nat.one_mul]
      omega
  · intro h
    rw [hmain, if_neg]
    rintro ⟨h1, h3⟩
    rcases h with h | h
    · rw [h] at h1; cases h1
    · exact h h3
  · intro h1 h3
    rw [hmain, if_pos ⟨h1, h3⟩]

example : (⟨3, [[1, 2], [3]], fun pop k => pop.take k, fun pop k => pop.take k⟩ : MemberHist Nat).Ok :=
  ⟨by decide, by decide, fun pop k _ => ⟨pop, List.Perm.refl _, rfl⟩,
    fun pop k hk => ⟨by simp; omega, fun x hx => List.mem_of_mem_take hx⟩⟩

end Machin.Dist
