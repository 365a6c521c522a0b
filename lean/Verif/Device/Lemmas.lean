import Verif.Device.Spec

/-! # Lemmas about devices -/

namespace Machin.Device

open Spec

theorem devSet_single {dev : Nat → Nat} {ps : List Nat} {d : Nat} : devSet dev ps = [d] ↔ On dev ps d := by
  unfold devSet On
  constructor
  · intro h
    have hm : ∀ x, x ∈ (ps.map dev) ↔ x = d := by
      intro x
      rw [← List.mem_dedup, h]
      simp
    refine ⟨?_, ?_⟩
    · rintro rfl
      simp at h
    · intro p hp
      exact (hm _).1 (List.mem_map_of_mem hp)
  · rintro ⟨h1, h2⟩
    induction ps with
    | nil => exact absurd rfl h1
    | cons p ps ih =>
      have hp := h2 p (by simp)
      rw [List.map_cons, hp]
      by_cases h0 : ps = []
      · subst h0
        simp
      · have := ih h0 (fun q hq => h2 q (by simp [hq]))
        have hd : d ∈ ps.map dev := by rw [← List.mem_dedup, this]; simp
        rw [List.dedup_cons_of_mem hd, this]

theorem single_ok {dev : Nat → Nat} {ps : List Nat} {d : Nat} : single dev ps = .ok d ↔ On dev ps d := by
  rw [← devSet_single]
  unfold single
  split
  · rename_i e he
    rw [he]
    simp
  · rename_i h
    constructor
    · intro h'; exact absurd h' (by simp)
    · intro h'; exact absurd h' (h d)

theorem inputDevice_ok {dev : Nat → Nat} {d : Nat} : ∀ (m : Mod), inputDevice dev m = .ok d ↔ ∃ x, Part true m x ∧ On dev x.params d
  | .plain ps => by
    constructor
    · intro h; simp [inputDevice] at h
    · rintro ⟨x, h, -⟩; cases h
  | .seq cs => by
    constructor
    · intro h; simp [inputDevice] at h
    · rintro ⟨x, h, -⟩; cases h
  | .net own none out => by
    constructor
    · intro h; simp [inputDevice] at h
    · rintro ⟨x, h, -⟩; cases h
  | .net own (some (.plain ps)) out => by
    rw [inputDevice, single_ok]
    constructor
    · intro h; exact ⟨_, .inPlain, by simpa [Mod.params] using h⟩
    · rintro ⟨x, h, h'⟩; cases h; simpa [Mod.params] using h'
  | .net own (some (.seq cs)) out => by
    rw [inputDevice, single_ok]
    constructor
    · intro h; exact ⟨_, .inSeq, by simpa [Mod.params] using h⟩
    · rintro ⟨x, h, h'⟩; cases h; simpa [Mod.params] using h'
  | .net own (some (.net own' i' o')) out => by
    rw [inputDevice, inputDevice_ok (.net own' i' o')]
    constructor
    · rintro ⟨x, h, h'⟩; exact ⟨x, .inNet h, h'⟩
    · rintro ⟨x, h, h'⟩; cases h with | inNet h => exact ⟨x, h, h'⟩

theorem outputDevice_ok {dev : Nat → Nat} {d : Nat} : ∀ (m : Mod), outputDevice dev m = .ok d ↔ ∃ x, Part false m x ∧ On dev x.params d
  | .plain ps => by
    constructor
    · intro h; simp [outputDevice] at h
    · rintro ⟨x, h, -⟩; cases h
  | .seq cs => by
    constructor
    · intro h; simp [outputDevice] at h
    · rintro ⟨x, h, -⟩; cases h
  | .net own none none => by
    constructor
    · intro h; simp [outputDevice] at h
    · rintro ⟨x, h, -⟩; cases h
  | .net own (some m) none => by
    rw [outputDevice, inputDevice_ok]
    constructor
    · rintro ⟨x, h, h'⟩; exact ⟨x, .outIn h, h'⟩
    · rintro ⟨x, h, h'⟩; cases h with | outIn h => exact ⟨x, h, h'⟩
  | .net own inp (some (.plain ps)) => by
    rw [show outputDevice dev (.net own inp (some (.plain ps))) = single dev ps by cases inp <;> rfl, single_ok]
    constructor
    · intro h; exact ⟨_, .outPlain, by simpa [Mod.params] using h⟩
    · rintro ⟨x, h, h'⟩; cases h; simpa [Mod.params] using h'
  | .net own inp (some (.seq cs)) => by
    rw [show outputDevice dev (.net own inp (some (.seq cs))) = single dev (paramsAll cs) by cases inp <;> rfl, single_ok]
    constructor
    · intro h; exact ⟨_, .outSeq, by simpa [Mod.params] using h⟩
    · rintro ⟨x, h, h'⟩; cases h; simpa [Mod.params] using h'
  | .net own inp (some (.net own' i' o')) => by
    rw [show outputDevice dev (.net own inp (some (.net own' i' o'))) = outputDevice dev (.net own' i' o') by
      cases inp <;> simp [outputDevice], outputDevice_ok (.net own' i' o')]
    constructor
    · rintro ⟨x, h, h'⟩; exact ⟨x, .outNet h, h'⟩
    · rintro ⟨x, h, h'⟩; cases h with | outNet h => exact ⟨x, h, h'⟩

theorem Part.sub {b : Bool} {m x : Mod} (h : Part b m x) : ∀ p ∈ x.params, p ∈ m.params := by
  induction h with
  | inPlain => intro p hp; simp [Mod.params, paramsOpt] at hp ⊢; simp [hp]
  | inSeq => intro p hp; simp [Mod.params, paramsOpt] at hp ⊢; simp [hp]
  | inNet _ ih =>
    intro p hp
    have := ih p hp
    rw [Mod.params]
    simp only [paramsOpt, List.mem_append]
    exact Or.inl (Or.inr this)
  | outPlain => intro p hp; simp [Mod.params, paramsOpt] at hp ⊢; simp [hp]
  | outSeq => intro p hp; simp [Mod.params, paramsOpt] at hp ⊢; simp [hp]
  | outNet _ ih =>
    intro p hp
    have := ih p hp
    rw [Mod.params]
    simp only [paramsOpt, List.mem_append]
    exact Or.inr this
  | outIn _ ih => exact ih

theorem Part.on_move {b : Bool} {m x : Mod} (h : Part b m x) (hne : x.params ≠ []) (dev : Nat → Nat) (d : Nat) :
    On (move dev m d) x.params d :=
  ⟨hne, fun p hp => by simp [move, Part.sub h p hp]⟩

/-- The end of a chain is unique. -/
theorem Part.unique {b : Bool} {m x : Mod} (h : Part b m x) : ∀ y, Part b m y → x = y := by
  induction h with
  | inPlain => intro y hy; cases hy; rfl
  | inSeq => intro y hy; cases hy; rfl
  | inNet _ ih => intro y hy; cases hy with | inNet h => exact ih y h
  | outPlain => intro y hy; cases hy; rfl
  | outSeq => intro y hy; cases hy; rfl
  | outNet _ ih => intro y hy; cases hy with | outNet h => exact ih y h
  | outIn _ ih => intro y hy; cases hy with | outIn h => exact ih y h

theorem devSet_le_one {dev : Nat → Nat} {ps : List Nat} (h : ¬ (devSet dev ps).length > 1) (hne : ps ≠ []) : ∃ d, On dev ps d := by
  cases hd : devSet dev ps with
  | nil =>
    unfold devSet at hd
    rw [List.dedup_eq_nil, List.map_eq_nil_iff] at hd
    exact absurd hd hne
  | cons d l =>
    cases l with
    | nil => exact ⟨d, devSet_single.1 hd⟩
    | cons e l => rw [hd] at h; simp at h

end Machin.Device
