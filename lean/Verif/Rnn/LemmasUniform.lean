import Verif.Rnn.Lemmas
import Verif.Replay.Count
import Mathlib.Algebra.BigOperators.Field

/-! # Lemmas about the distribution of the windows of the RNN buffers -/

namespace Machin.Rnn

open Replay Spec

theorem shareOf_prod {Ω₁ Ω₂ : Type} [Fintype Ω₁] [Fintype Ω₂] [Nonempty Ω₁] {n : Nat} (g : Ω₁ → Fin n)
    (hg : ∀ i i', (Finset.univ.filter fun o => g o = i).card = (Finset.univ.filter fun o => g o = i').card) (P : Fin n → Ω₂ → Bool) :
    shareOf (fun o : Ω₁ × Ω₂ => P (g o.1) o.2) = (∑ i : Fin n, shareOf (P i)) / n := by
  obtain ⟨o₀⟩ := ‹Nonempty Ω₁›
  have hn : (n : ℚ) ≠ 0 := by
    have := (g o₀).isLt
    have : 0 < n := by omega
    exact_mod_cast this.ne'
  set c := (Finset.univ.filter fun o => g o = g o₀).card with hc
  have hcn : (c : ℚ) ≠ 0 := by
    have : 0 < c := Finset.card_pos.2 ⟨o₀, by simp⟩
    exact_mod_cast this.ne'
  have h2 : Fintype.card Ω₁ = n * c := by
    rw [← Finset.card_univ, Finset.card_eq_sum_card_fiberwise (f := g) (t := Finset.univ) (by intro x _; simp),
      Finset.sum_congr rfl fun i _ => hg i (g o₀)]
    simp [hc]
  have h1 : (Finset.univ.filter fun o : Ω₁ × Ω₂ => P (g o.1) o.2 = true).card =
      ∑ i : Fin n, c * (Finset.univ.filter fun o => P i o = true).card := by
    rw [Finset.card_eq_sum_card_fiberwise (f := fun o : Ω₁ × Ω₂ => g o.1) (t := Finset.univ) (by intro x _; simp)]
    apply Finset.sum_congr rfl
    intro i _
    rw [hc, ← hg i (g o₀), ← Finset.card_product]
    congr 1
    ext ⟨a, x⟩
    simp only [Finset.mem_filter, Finset.mem_univ, true_and, Finset.mem_product]
    constructor
    · rintro ⟨h, rfl⟩; exact ⟨rfl, h⟩
    · rintro ⟨rfl, h⟩; exact ⟨h, rfl⟩
  unfold shareOf
  rw [h1, Fintype.card_prod, h2, ← Finset.sum_div, ← Finset.mul_sum]
  push_cast
  rcases eq_or_ne (Fintype.card Ω₂ : ℚ) 0 with h0 | h0
  · simp [h0]
  · field_simp

theorem fibers_mod {m c : Nat} (hm : 0 < m) (i i' : Fin m) :
    (Finset.univ.filter fun x : Fin (m * c) => (⟨x.val % m, Nat.mod_lt _ hm⟩ : Fin m) = i).card =
      (Finset.univ.filter fun x : Fin (m * c) => (⟨x.val % m, Nat.mod_lt _ hm⟩ : Fin m) = i').card := by
  have hlt : ∀ (x : Fin (m * c)) (s : Fin m), m * (x.val / m) + s.val < m * c := by
    intro x s
    have h1 : x.val / m < c := Nat.div_lt_of_lt_mul x.isLt
    have h2 := s.isLt
    have h3 : m * (x.val / m + 1) ≤ m * c := Nat.mul_le_mul_left m h1
    rw [Nat.mul_add] at h3
    omega
  have hdiv : ∀ (x : Nat) (s : Fin m), (m * x + s.val) / m = x := by
    intro x s
    rw [Nat.mul_add_div hm, Nat.div_eq_of_lt s.isLt]
    omega
  have hmod : ∀ (x : Nat) (s : Fin m), (m * x + s.val) % m = s.val := by
    intro x s
    rw [Nat.mul_add_mod, Nat.mod_eq_of_lt s.isLt]
  refine Finset.card_bij' (fun x _ => ⟨m * (x.val / m) + i'.val, hlt x i'⟩) (fun x _ => ⟨m * (x.val / m) + i.val, hlt x i⟩) ?_ ?_ ?_ ?_
  · intro x _
    simp [Fin.ext_iff, hmod]
  · intro x _
    simp [Fin.ext_iff, hmod]
  · intro x h
    simp only [Finset.mem_filter, Finset.mem_univ, true_and, Fin.ext_iff] at h
    apply Fin.ext
    simp only [hdiv]
    rw [← h]
    exact Nat.div_add_mod x.val m
  · intro x h
    simp only [Finset.mem_filter, Finset.mem_univ, true_and, Fin.ext_iff] at h
    apply Fin.ext
    simp only [hdiv]
    rw [← h]
    exact Nat.div_add_mod x.val m

theorem shareOf_mod {K D m : Nat} (hm : 0 < m) (hD : m ∣ D) (hD0 : 0 < D) (j : Fin K) (P : Nat → Bool) :
    shareOf (fun r : Fin K → Fin D => P ((r j).val % m)) = ((Finset.univ.filter fun s : Fin m => P s.val = true).card : ℚ) / m := by
  obtain ⟨c, rfl⟩ := hD
  haveI : Nonempty (Fin K → Fin (m * c)) := ⟨fun _ => ⟨0, hD0⟩⟩
  haveI : Nonempty (Fin (m * c)) := ⟨⟨0, hD0⟩⟩
  have h1 := shareOf_fibers (fun r : Fin K → Fin (m * c) => r j) (fun i i' => fibers_choice j i i') (fun x => P (x.val % m))
  have h2 := shareOf_fibers (fun x : Fin (m * c) => (⟨x.val % m, Nat.mod_lt _ hm⟩ : Fin m)) (fun i i' => fibers_mod hm i i') (fun s => P s.val)
  rw [h1, ← h2]
  simp [shareOf]

theorem startPositions_exact {τ : Type} {b : Buffer τ} {M : List (Nat × List τ)} (h : List.Forall₂ (Holds b) b.eth M)
    (hnd : (M.map (·.1)).Nodup) (randint : Nat → Nat → Nat) (L : Nat) : ∀ (q : List (Nat × List τ)) (i : Nat),
    (∀ e ∈ q, e ∈ M) → startPositions randint b.eth L i (q.map (·.1)) = .ok (q.mapIdx fun j e => (e.1, randint (i + j) (e.2.length - L))) := by
  intro q
  induction q with
  | nil => intro i _; rfl
  | cons e q ih =>
    intro i hm
    obtain ⟨hs, k1, k2⟩ := holds_get h hnd e (hm e (by simp))
    have hl := k2.length
    simp only at hl
    simp only [List.map_cons, startPositions, k1, ih (i + 1) (fun e he => hm e (by simp [he])), List.mapIdx_cons, hl, Nat.add_zero]
    congr 3
    funext j e
    rw [Nat.add_right_comm, Nat.add_assoc]

theorem gather_exact {τ : Type} {b : Buffer τ} {M : List (Nat × List τ)} (h : List.Forall₂ (Holds b) b.eth M)
    (hnd : (M.map (·.1)).Nodup) (L : Nat) : ∀ (q : List (Nat × List τ)) (st : Nat → (Nat × List τ) → Nat), (∀ e ∈ q, e ∈ M) →
    gather b L (q.mapIdx fun j e => (e.1, st j e)) = .ok (q.mapIdx fun j e => (e.2.drop (st j e)).take L).flatten := by
  intro q
  induction q with
  | nil => intro _ _; rfl
  | cons e q ih =>
    intro st hm
    obtain ⟨hs, k1, k2⟩ := holds_get h hnd e (hm e (by simp))
    simp only [List.mapIdx_cons, gather, k1, window_fetch k2, ih (fun j => st (j + 1)) (fun e he => hm e (by simp [he])), List.flatten_cons]

theorem sampleEpisodes_exact {τ : Type} {b : Buffer τ} {M : List (Nat × List τ)} (h : List.Forall₂ (Holds b) b.eth M)
    (hnd : (M.map (·.1)).Nodup) (draw : List Nat → Nat → List Nat) (randint : Nat → Nat → Nat) (L B : Nat) (q : List (Nat × List τ))
    (hq : ∀ e ∈ q, e ∈ M.filter fun e => L ≤ e.2.length)
    (hdraw : draw (validEpisodes L b.eth) (min (validEpisodes L b.eth).length B) = q.map (·.1)) :
    sampleEpisodes draw randint b L B = .ok (q.length, (q.mapIdx fun j e => (e.2.drop (randint j (e.2.length - L))).take L).flatten) := by
  have hq1 : ∀ e ∈ q, e ∈ M := fun e he => (List.mem_filter.1 (hq e he)).1
  simp only [sampleEpisodes, hdraw, startPositions_exact h hnd randint L q 0 hq1, Nat.zero_add]
  rw [gather_exact h hnd L q (fun j e => randint j (e.2.length - L)) hq1]
  simp

end Machin.Rnn
