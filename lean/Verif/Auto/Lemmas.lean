import Verif.Auto.Spec

/-! # Lemmas about the loop over the steps of an episode -/

namespace Machin.Auto

open Spec

variable {F W α I P : Type} {choose : Choose F α} {env : Env W α I P}

/-- The pictures taken in an episode. -/
def pictures (env : Env W α I P) (counter : Nat) (n : Int) (steps : List (Step W α I)) : List P :=
  if (counter : Int) % n = 0 then steps.map fun s => env.render s.world else []

theorem run_spec {counter : Nat} {n : Int} : ∀ {fuel : Nat} {l l' : Loop F W α I P},
    Loop.run choose env counter n fuel l = some (.ok l') →
    n ≠ 0 ∧ ∃ steps, Played choose env l.frame l.world l.state steps l'.frame l'.world ∧ steps.length ≤ fuel ∧
      l'.total = l.total + sumRewards (steps.map (·.obs.reward)) ∧ l'.rendering = l.rendering ++ pictures env counter n steps ∧
      l'.result.observations = l.result.observations ++ steps.map (·.obs) ∧
      l'.result.logs = l.result.logs ++ steps.map (fun s => Log.info s.info)
  | 0, l, l', h => by simp [Loop.run] at h
  | fuel + 1, l, l', h => by
    simp only [Loop.run] at h
    split at h
    · simp at h
    · rename_i l₁ terminal hround
      by_cases hn : n = 0
      · simp [Loop.round, hn] at hround
      simp only [Loop.round, if_neg hn] at hround
      split at hround
      · simp at hround
      rename_i a stored frame hc
      split at hround
      · simp at hround
      rename_i out world hs
      simp only [Except.ok.injEq, Prod.mk.injEq] at hround
      obtain ⟨rfl, rfl⟩ := hround
      refine ⟨hn, ?_⟩
      cases ht : out.terminal with
      | true =>
        simp only [ht, if_true, Option.some.injEq, Except.ok.injEq] at h
        subst h
        refine ⟨_, .last hc hs ht, by simp, ?_, ?_, ?_, ?_⟩
        · simp [sumRewards, Rat.add_zero]
        · by_cases hp : (counter : Int) % n = 0 <;> simp [pictures, hp]
        · simp
        · simp
      | false =>
        simp only [ht, Bool.false_eq_true, if_false] at h
        obtain ⟨-, steps, hp, hlen, htot, hrend, hobs, hlogs⟩ := run_spec h
        refine ⟨_, .more hc hs ht hp, by simpa using hlen, ?_, ?_, ?_, ?_⟩
        · rw [htot]; simp [sumRewards, Rat.add_assoc]
        · rw [hrend]
          by_cases hq : (counter : Int) % n = 0 <;> simp [pictures, hq]
        · rw [hobs]; simp
        · rw [hlogs]; simp

theorem run_of_played {counter : Nat} {n : Int} (hn : n ≠ 0) {f f' : Frame F} {w w' : W} {s : Tensor α} {steps : List (Step W α I)}
    (h : Played choose env f w s steps f' w') : ∀ (fuel : Nat) (total : Rat) (rendering : List P) (result : Result α I P),
    steps.length ≤ fuel → ∃ l', Loop.run choose env counter n fuel ⟨f, w, s, total, rendering, result⟩ = some (.ok l') := by
  induction h with
  | last hc hs ht =>
    intro fuel total rendering result hle
    obtain ⟨fuel, rfl⟩ : ∃ m, fuel = m + 1 := ⟨fuel - 1, by simp at hle; omega⟩
    simp [Loop.run, Loop.round, hn, hc, hs, ht]
  | more hc hs ht _ ih =>
    intro fuel total rendering result hle
    obtain ⟨fuel, rfl⟩ : ∃ m, fuel = m + 1 := ⟨fuel - 1, by simp at hle; omega⟩
    simp only [Loop.run, Loop.round, hn, hc, hs, ht, if_false, Bool.false_eq_true]
    exact ih fuel _ _ _ (by simpa using hle)

/-- A played episode is not empty, starts in its first state, is connected, and ends with its only terminal step. -/
theorem played_shape {f f' : Frame F} {w w' : W} {s : Tensor α} {steps : List (Step W α I)} (h : Played choose env f w s steps f' w') :
    (∃ x, steps[0]? = some x ∧ x.obs.state = s ∧ x.world = w) ∧
    (∀ k x y, steps[k]? = some x → steps[k + 1]? = some y → x.obs.nextState = y.obs.state) ∧
    (∀ k x, steps[k]? = some x → (x.obs.terminal = true ↔ k + 1 = steps.length)) := by
  induction h with
  | last hc hs ht =>
    refine ⟨⟨_, rfl, rfl, rfl⟩, by simp, ?_⟩
    intro k x hk
    cases k with
    | zero => simp at hk; simp [← hk]
    | succ k => simp at hk
  | more hc hs ht hr ih =>
    obtain ⟨⟨x0, h0, hx0, -⟩, hchain, hterm⟩ := ih
    refine ⟨⟨_, rfl, rfl, rfl⟩, ?_, ?_⟩
    · intro k x y hk hk1
      cases k with
      | zero =>
        simp only [List.getElem?_cons_zero, Option.some.injEq] at hk
        rw [List.getElem?_cons_succ, h0, Option.some.injEq] at hk1
        rw [← hk, ← hk1, hx0]
      | succ k => exact hchain k x y (by simpa using hk) (by simpa using hk1)
    · intro k x hk
      cases k with
      | zero =>
        simp only [List.getElem?_cons_zero, Option.some.injEq] at hk
        subst hk
        rename_i steps
        have : steps ≠ [] := by rintro rfl; simp at h0
        have := List.length_pos_iff.2 this
        simp; omega
      | succ k =>
        have := hterm k x (by simpa using hk)
        simp only [this, List.length_cons]
        omega

theorem setSync_kind (f : Frame F) (b : Bool) : (f.setSync b).kind = f.kind := rfl

end Machin.Auto
