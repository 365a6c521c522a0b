import Verif.Rnn.Props
import Verif.Rnn.DistPrio
import Verif.Dist.Lemmas

/-! # C218: sampling windows from a group of uniform RNN buffers -/

namespace Machin.Rnn

open Replay Dist Spec

/-- A member given by its history: capacity, the episodes it was asked to store, and the results of its random generator. -/
structure HMember (ι : Type) where
  cap : Nat
  hist : List (List ι)
  sample : List Nat → Nat → List Nat
  choices : List Nat → Nat → List Nat
  randint : Nat → Nat → Nat

/-- The episodes fit into the buffer, and the random generator keeps its contracts. -/
structure HMember.Ok {ι : Type} (m : HMember ι) : Prop where
  cap : 1 ≤ m.cap
  fits : ∀ ep ∈ m.hist, ep.length ≤ m.cap
  sample : SampleContract m.sample
  choices : ChoicesContract m.choices
  randint : ∀ j hi, m.randint j hi ≤ hi

/-- The member after its history. -/
def HMember.state {ι τ : Type} (conv : ι → Except Err τ) (m : HMember ι) : UMember τ :=
  ⟨(Buffer.new τ m.cap).run conv m.hist, m.sample, m.choices, m.randint⟩

/-- The episodes a member still holds completely. -/
def HMember.live {ι τ : Type} (conv : ι → Except Err τ) (m : HMember ι) : List (List τ) :=
  Replay.Spec.keep m.cap (Replay.Spec.accepted conv m.hist)

/-- Specification: `ws` are windows of length `L`, drawn by the method from the episodes `live`, at most `k` of them for the random methods. -/
def WindowsOf {τ : Type} (L : Nat) (method : Dist.Method) (k : Nat) (live ws : List (List τ)) : Prop :=
  let long := live.filter fun ep => L ≤ ep.length
  match method with
  | .randomUnique => ∃ perm : List (List τ), perm.Perm long ∧ List.Forall₂ (IsRun L) (perm.take (min long.length k)) ws
  | .random => ∃ eps : List (List τ), eps.length = min long.length k ∧ (∀ ep ∈ eps, ep ∈ long) ∧ List.Forall₂ (IsRun L) eps ws
  | .all => ws = live.flatMap (runs L)

theorem WindowsOf.lengths {τ : Type} {L : Nat} {method : Dist.Method} {k : Nat} {live ws : List (List τ)} (h : WindowsOf L method k live ws) :
    ∀ w ∈ ws, w.length = L := by
  have hf : ∀ (eps ws : List (List τ)), List.Forall₂ (IsRun L) eps ws → ∀ w ∈ ws, w.length = L := by
    intro eps ws hf
    induction hf with
    | nil => intro w hw; simp at hw
    | cons h1 _ ih =>
      intro w hw
      rcases List.mem_cons.1 hw with rfl | hw
      · exact IsRun.length h1
      · exact ih w hw
  cases method with
  | randomUnique => obtain ⟨perm, -, h2⟩ := h; exact hf _ _ h2
  | random => obtain ⟨eps, -, -, h2⟩ := h; exact hf _ _ h2
  | all =>
    intro w hw
    have h : ws = live.flatMap (runs L) := h
    rw [h] at hw
    obtain ⟨ep, -, hw⟩ := List.mem_flatMap.1 hw
    exact IsRun.length (runs_isRun hw)

theorem service_windows {ι τ : Type} (conv : ι → Except Err τ) (L : Nat) (hL : 1 ≤ L) (m : HMember ι) (hm : m.Ok) (k : Nat) (method : Dist.Method) :
    ∃ ws : List (List τ), WindowsOf L method k (m.live conv) ws ∧
      rnnService L m.sample m.choices m.randint (m.state conv).buf k method = .ok (ws.length, ws.flatten) := by
  obtain ⟨⟨perm, ws, h1, h2, h3, -⟩, ⟨eps, ws', g1, g2, g3, g4, -⟩, h5, -⟩ :=
    C20_rnn_windows (τ := τ) conv m.cap hm.cap m.hist hm.fits L hL k m.sample m.choices hm.sample hm.choices m.randint hm.randint
  cases method with
  | randomUnique =>
    refine ⟨ws, ⟨perm, h1, h2⟩, ?_⟩
    have := h2.length_eq
    rw [List.length_take, h1.length_eq] at this
    show sampleEpisodes m.sample m.randint _ L k = _
    rw [← this]
    refine h3.trans ?_
    congr 2
    omega
  | random =>
    refine ⟨ws', ⟨eps, g1, g2, g3⟩, ?_⟩
    show sampleEpisodes m.choices m.randint _ L k = _
    rw [← g3.length_eq, g1]
    exact g4
  | all => exact ⟨_, rfl, h5⟩

theorem services_windows {ι τ : Type} (conv : ι → Except Err τ) (L : Nat) (hL : 1 ≤ L) (k : Nat) (method : Dist.Method) : ∀ (ms : List (HMember ι)), (∀ m ∈ ms, m.Ok) →
    ∃ wss : List (List (List τ)), List.Forall₂ (fun m ws => WindowsOf L method k (m.live conv) ws) ms wss ∧
      waitAll ((ms.map (HMember.state conv)).map fun m => rnnService L m.sample m.choices m.randint m.buf k method) =
        .ok (wss.map fun ws => (ws.length, ws.flatten)) := by
  intro ms
  induction ms with
  | nil => intro _; exact ⟨[], .nil, rfl⟩
  | cons m ms ih =>
    intro h
    obtain ⟨ws, h1, h2⟩ := service_windows (τ := τ) conv L hL m (h m (by simp)) k method
    obtain ⟨wss, h3, h4⟩ := ih (fun m hm => h m (by simp [hm]))
    refine ⟨ws :: wss, .cons h1 h3, ?_⟩
    rw [List.map_cons, List.map_cons, show rnnService L (m.state conv : UMember τ).sample (m.state conv : UMember τ).choices (m.state conv : UMember τ).randint
      (m.state conv : UMember τ).buf k method = _ from h2]
    simp only [waitAll, h4, List.map_cons]

/-- C218, full statement: sampling from a group of uniform RNN buffers returns the windows drawn by the members, one member after the other, with their number. -/
def C218_full : Prop :=
  ∀ (ι τ : Type) (conv : ι → Except Err τ) (L : Nat), 1 ≤ L → ∀ ms : List (HMember ι), ms ≠ [] → (∀ m ∈ ms, m.Ok) →
    ∀ (B : Nat) (method : Dist.Method) (attrsGiven : Bool),
    ∃ wss : List (List (List τ)), List.Forall₂ (fun m ws => WindowsOf L method (localSize B ms.length) (m.live conv) ws) ms wss ∧
      groupSampleUniform L (ms.map (HMember.state conv)) B method attrsGiven =
        .ok (wss.flatten.length, if wss.flatten = [] then none else some wss.flatten.flatten)

/-- A member with one episode of one step. -/
abbrev dShort : HMember Nat := ⟨3, [[1]], fun pop k => pop.take k, fun pop k => pop.take k, fun _ hi => hi⟩

theorem dShort_ok : dShort.Ok :=
  ⟨by decide, by decide, fun pop k _ => ⟨pop, List.Perm.refl _, rfl⟩, fun pop k hk => ⟨by simp; omega, fun x hx => List.mem_of_mem_take hx⟩, fun _ _ => Nat.le_refl _⟩

/-- C218 is violated: without `sample_attrs`, sampling when no episode of any member is long enough raises `IndexError`. -/
theorem C218_violated : ¬ C218_full := by
  intro h
  obtain ⟨wss, -, h2⟩ := h Nat Nat Prio.exConv 2 (by decide) [dShort] (by simp)
    (by intro m hm; obtain rfl : m = _ := by simpa using hm
        exact dShort_ok) 4 .random false
  have : groupSampleUniform 2 ([dShort].map (HMember.state Prio.exConv)) 4 .random false = .error .index := by decide +kernel
  rw [this] at h2
  cases h2

/-- C218, what does hold: unless nothing at all is sampled and `sample_attrs` is not given, the call returns the windows drawn by the members, one member after
the other; their number; at most `p * ceil(B / p)` of them for the random methods; and cutting the batch (`post_process_attribute`) gives the windows back: no
window runs over the border between two members. Missing: the case that nothing is sampled, in which `IndexError` is raised. -/
theorem C218_windows_partial {ι τ : Type} (conv : ι → Except Err τ) (L : Nat) (hL : 1 ≤ L) (ms : List (HMember ι)) (hne : ms ≠ []) (hok : ∀ m ∈ ms, m.Ok)
    (B : Nat) (method : Dist.Method) (attrsGiven : Bool) :
    ∃ wss : List (List (List τ)), List.Forall₂ (fun m ws => WindowsOf L method (localSize B ms.length) (m.live conv) ws) ms wss ∧
      (method ≠ .all → wss.flatten.length ≤ ms.length * localSize B ms.length) ∧
      postProcess L wss.flatten.flatten = wss.flatten ∧
      (attrsGiven = true ∨ wss.flatten ≠ [] → groupSampleUniform L (ms.map (HMember.state conv)) B method attrsGiven =
        .ok (wss.flatten.length, if wss.flatten = [] then none else some wss.flatten.flatten)) ∧
      (attrsGiven = false → wss.flatten = [] → groupSampleUniform L (ms.map (HMember.state conv)) B method attrsGiven = .error .index) := by
  obtain ⟨wss, h1, h2⟩ := services_windows (τ := τ) conv L hL (localSize B ms.length) method ms hok
  have hlen : ∀ w ∈ wss.flatten, w.length = L := by
    clear h2 hok hne
    generalize localSize B ms.length = k at h1
    induction h1 with
    | nil => intro w hw; simp at hw
    | cons a _ ih =>
      intro w hw
      rw [List.flatten_cons, List.mem_append] at hw
      rcases hw with hw | hw
      · exact a.lengths w hw
      · exact ih w hw
  have hnil : wss.flatten.flatten = [] ↔ wss.flatten = [] := by
    constructor
    · intro h
      rcases hw : wss.flatten with _ | ⟨w, ws⟩
      · rfl
      · rw [hw] at h hlen
        have := hlen w (by simp)
        have h0 : w = [] := by
          have := List.flatten_eq_nil_iff.1 h w (by simp)
          exact this
        rw [h0] at this
        simp at this
        omega
    · intro h; rw [h]; rfl
  have hsum : ((wss.map fun ws => (ws.length, ws.flatten)).map (·.1)).sum = wss.flatten.length := by
    rw [List.map_map, List.length_flatten]; rfl
  have hflat : ((wss.map fun ws => (ws.length, ws.flatten)).map (·.2)).flatten = wss.flatten.flatten := by
    rw [List.map_map]
    clear h1 h2 hlen hnil hsum
    induction wss with
    | nil => rfl
    | cons a l ih => simp only [List.map_cons, List.flatten_cons, List.flatten_append, ih, Function.comp]
  have hrun : groupSampleUniform L (ms.map (HMember.state conv)) B method attrsGiven =
      if attrsGiven = false ∧ wss.flatten.flatten = [] then .error .index
      else .ok (wss.flatten.length, if wss.flatten.flatten = [] then none else some wss.flatten.flatten) := by
    unfold groupSampleUniform
    rw [if_neg (by simpa using hne)]
    simp only [List.length_map, h2, hsum, hflat]
  refine ⟨wss, h1, ?_, postProcess_flatten L hL _ hlen, ?_, ?_⟩
  · intro hm
    clear hlen hnil hsum hflat hrun h2 hok hne
    generalize localSize B ms.length = k at h1
    induction h1 with
    | nil => simp
    | @cons m ws ms' wss' a _ ih =>
      rw [List.flatten_cons, List.length_append, List.length_cons, Nat.succ_mul]
      have : ws.length ≤ k := by
        cases method with
        | randomUnique =>
          obtain ⟨perm, h1, h2⟩ := a
          rw [← h2.length_eq, List.length_take]; omega
        | random =>
          obtain ⟨eps, h1, -, h2⟩ := a
          rw [← h2.length_eq, h1]; omega
        | all => exact absurd rfl hm
      omega
  · intro h
    rw [hrun, if_neg]
    · simp only [hnil]
    · rintro ⟨h3, h4⟩
      rcases h with h | h
      · rw [h3] at h; cases h
      · exact h (hnil.1 h4)
  · intro h3 h4
    rw [hrun, if_pos ⟨h3, hnil.2 h4⟩]

example : ∃ ms : List (HMember Nat), ms ≠ [] ∧ (∀ m ∈ ms, m.Ok) ∧
    groupSampleUniform 2 (ms.map (HMember.state Prio.exConv)) 3 .random false = .ok (3, some [1, 2, 4, 5, 6, 7]) :=
  ⟨[⟨6, [[1, 2], [3, 4, 5]], fun pop k => pop.take k, fun pop k => pop.take k, fun _ hi => hi⟩,
    ⟨6, [[6, 7]], fun pop k => pop.take k, fun pop k => pop.take k, fun _ hi => hi⟩], by simp, by
    intro m hm
    simp only [List.mem_cons, List.not_mem_nil, or_false] at hm
    rcases hm with rfl | rfl <;>
      exact ⟨by decide, by decide, fun pop k _ => ⟨pop, List.Perm.refl _, rfl⟩, fun pop k hk => ⟨by simp; omega, fun x hx => List.mem_of_mem_take hx⟩,
        fun _ _ => Nat.le_refl _⟩, by decide +kernel⟩

end Machin.Rnn
