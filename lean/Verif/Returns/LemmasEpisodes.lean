import Verif.Returns.Props
import Verif.Returns.SpecEpisodes
import Mathlib.Algebra.BigOperators.Ring.Finset
import Mathlib.Tactic.Ring
import Mathlib.Tactic.LinearCombination

/-! # Helper lemmas on averages over episodes -/

namespace Machin.Returns

open Spec

variable {R S A Ω : Type} [CommRing R] [Fintype A] [Fintype Ω]

/-- The episodes that are played. -/
def Played (e : Env R S A Ω) : Nat → S → List (A × Tr R S) → Prop
  | 0, _, ep => ep = []
  | n + 1, s, ep => ∃ a o, (e.term s a o = true ∧ ep = [(a, e.tr s a o)]) ∨
      (e.term s a o = false ∧ ∃ l, Played e n (e.next s a o) l ∧ ep = (a, e.tr s a o) :: l)

theorem avg_congr (e : Env R S A Ω) (pi : S → A → R) (n : Nat) (s : S) (f f' : List (A × Tr R S) → R)
    (h : ∀ ep, Played e n s ep → f ep = f' ep) : avg e pi n s f = avg e pi n s f' := by
  induction n generalizing s f f' with
  | zero => exact h [] rfl
  | succ n ih =>
    unfold avg
    refine Finset.sum_congr rfl fun a _ => ?_
    congr 1
    refine Finset.sum_congr rfl fun o _ => ?_
    congr 1
    by_cases ht : e.term s a o = true
    · rw [if_pos ht, if_pos ht]
      exact h _ ⟨a, o, Or.inl ⟨ht, rfl⟩⟩
    · rw [if_neg ht, if_neg ht]
      exact ih _ _ _ fun l hl => h _ ⟨a, o, Or.inr ⟨by simpa using ht, l, hl, rfl⟩⟩

theorem avg_add (e : Env R S A Ω) (pi : S → A → R) (n : Nat) (s : S) (f f' : List (A × Tr R S) → R) :
    avg e pi n s (fun ep => f ep + f' ep) = avg e pi n s f + avg e pi n s f' := by
  induction n generalizing s f f' with
  | zero => rfl
  | succ n ih =>
    unfold avg
    rw [← Finset.sum_add_distrib]
    refine Finset.sum_congr rfl fun a _ => ?_
    rw [← mul_add, ← Finset.sum_add_distrib]
    congr 1
    refine Finset.sum_congr rfl fun o _ => ?_
    rw [ih]
    split <;> ring

theorem avg_mul (e : Env R S A Ω) (pi : S → A → R) (n : Nat) (s : S) (c : R) (f : List (A × Tr R S) → R) :
    avg e pi n s (fun ep => c * f ep) = c * avg e pi n s f := by
  induction n generalizing s f with
  | zero => rfl
  | succ n ih =>
    unfold avg
    rw [Finset.mul_sum]
    refine Finset.sum_congr rfl fun a _ => ?_
    rw [mul_left_comm]
    refine congrArg (pi s a * ·) (Eq.trans (Finset.sum_congr rfl fun o _ => ?_) (Finset.mul_sum _ _ _).symm)
    rw [ih]
    split <;> ring

theorem avg_const (e : Env R S A Ω) (pi : S → A → R) (hf : Fair e pi) (n : Nat) (s : S) (c : R) : avg e pi n s (fun _ => c) = c := by
  induction n generalizing s with
  | zero => rfl
  | succ n ih =>
    unfold avg
    have : ∀ a, pi s a * (∑ o, e.prob s a o * if e.term s a o = true then c else avg e pi n (e.next s a o) fun _ => c) = pi s a * c := by
      intro a
      congr 1
      have : ∀ o, (e.prob s a o * if e.term s a o = true then c else avg e pi n (e.next s a o) fun _ => c) = e.prob s a o * c := by
        intro o
        rw [ih]
        split <;> rfl
      rw [Finset.sum_congr rfl fun o _ => this o, ← Finset.sum_mul, hf.outcomes, one_mul]
    rw [Finset.sum_congr rfl fun a _ => this a, ← Finset.sum_mul, hf.actions, one_mul]

theorem Played.shape {e : Env R S A Ω} {rank : S → Nat} (hr : Ending e rank) {n : Nat} {s : S} {ep : List (A × Tr R S)}
    (h : Played e n s ep) (hn : rank s < n) :
    Chained (ep.map (·.2)) ∧ Ends (ep.map (·.2)) ∧ (∃ x l, ep = x :: l ∧ x.2.state = s) := by
  induction n generalizing s ep with
  | zero => omega
  | succ n ih =>
    obtain ⟨a, o, ⟨ht, rfl⟩ | ⟨ht, l, hl, rfl⟩⟩ := h
    · exact ⟨trivial, by intro tr h; simp at h; subst h; exact ht, _, _, rfl, rfl⟩
    · obtain ⟨hc, he, x, l', rfl, hx⟩ := ih hl (by have := hr s a o ht; omega)
      refine ⟨?_, ?_, _, _, rfl, rfl⟩
      · exact ⟨hx.symm, ht, hc⟩
      · intro tr h
        exact he tr (by simpa using h)

/-- The average of what one step contributes, given its state and action. -/
def stepAvg (e : Env R S A Ω) (pi : S → A → R) (n : Nat) (s : S) (a : A) (f : List (A × Tr R S) → R) : R :=
  ∑ o, e.prob s a o * if e.term s a o then f [(a, e.tr s a o)] else avg e pi n (e.next s a o) (fun l => f ((a, e.tr s a o) :: l))

theorem avg_succ (e : Env R S A Ω) (pi : S → A → R) (n : Nat) (s : S) (f : List (A × Tr R S) → R) :
    avg e pi (n + 1) s f = ∑ a, pi s a * stepAvg e pi n s a f := rfl

/-- Numbers that are computed for every step from the rest of the episode. -/
theorem avg_weighted (e : Env R S A Ω) (pi : S → A → R) (rank : S → Nat) (hr : Ending e rank) (hf : Fair e pi)
    (F : List (A × Tr R S) → List R) (h : List (A × Tr R S) → R) (B : S → A → R)
    (hF : ∀ x l, F (x :: l) = h (x :: l) :: F l)
    (hB : ∀ n s a, rank s < n + 1 → stepAvg e pi n s a h = B s a) (n : Nat) (s : S) (hn : rank s < n)
    (w : List (A × Tr R S) → S → A → R) :
    avg e pi n s (fun ep => weighted w ep (F ep)) = avg e pi n s (fun ep => weighted w ep (ep.map fun x => B x.2.state x.1)) := by
  induction n generalizing s w with
  | zero => omega
  | succ n ih =>
    rw [avg_succ, avg_succ]
    refine Finset.sum_congr rfl fun a _ => ?_
    congr 1
    -- both sides: the step itself and the steps after it
    have h1 : ∀ o, (if e.term s a o = true then weighted w [(a, e.tr s a o)] (F [(a, e.tr s a o)])
          else avg e pi n (e.next s a o) fun l => weighted w ((a, e.tr s a o) :: l) (F ((a, e.tr s a o) :: l))) =
        w [] s a * (if e.term s a o = true then h [(a, e.tr s a o)] else avg e pi n (e.next s a o) fun l => h ((a, e.tr s a o) :: l)) +
        (if e.term s a o = true then 0
          else avg e pi n (e.next s a o) fun l => weighted (fun p => w ((a, e.tr s a o) :: p)) l (F l)) := by
      intro o
      by_cases ht : e.term s a o = true
      · rw [if_pos ht, if_pos ht, if_pos ht, hF]
        show _ + weighted _ [] _ = _
        simp [weighted, Env.tr]
      · rw [if_neg ht, if_neg ht, if_neg ht, ← avg_mul, ← avg_add]
        refine avg_congr _ _ _ _ _ _ fun l _ => ?_
        rw [hF]
        rfl
    have h2 : ∀ o, (if e.term s a o = true then weighted w [(a, e.tr s a o)] ([(a, e.tr s a o)].map fun x => B x.2.state x.1)
          else avg e pi n (e.next s a o) fun l => weighted w ((a, e.tr s a o) :: l) (((a, e.tr s a o) :: l).map fun x => B x.2.state x.1)) =
        w [] s a * B s a +
        (if e.term s a o = true then 0
          else avg e pi n (e.next s a o) fun l => weighted (fun p => w ((a, e.tr s a o) :: p)) l (F l)) := by
      intro o
      by_cases ht : e.term s a o = true
      · rw [if_pos ht, if_pos ht]
        simp [weighted, Env.tr]
      · rw [if_neg ht, if_neg ht, ih _ (by have := hr s a o (by simpa using ht); omega)]
        have : w [] s a * B s a = avg e pi n (e.next s a o) (fun _ => w [] s a * B s a) := (avg_const e pi hf _ _ _).symm
        rw [this, ← avg_add]
        rfl
    unfold stepAvg
    refine (Finset.sum_congr rfl fun o _ => congrArg (e.prob s a o * ·) (h1 o)).trans
      (Eq.trans ?_ (Finset.sum_congr rfl fun o _ => congrArg (e.prob s a o * ·) (h2 o)).symm)
    simp only [mul_add, Finset.sum_add_distrib]
    congr 1
    have hb := hB n s a hn
    unfold stepAvg at hb
    rw [← Finset.sum_mul, hf.outcomes, one_mul, ← hb, Finset.mul_sum]
    exact Finset.sum_congr rfl fun o _ => by ring

/-- The first entry. -/
def first (l : List R) : R := l.head?.getD 0

theorem first_values (g r : R) (rs : List R) : first (values g (r :: rs)) = r + g * first (values g rs) := by
  cases rs with
  | nil => simp [values, first]
  | cons r' rs =>
    have hl := values_length g (r' :: rs)
    unfold first
    rw [values]
    rcases hv : values g (r' :: rs) with _ | ⟨v, vs⟩
    · rw [hv] at hl; simp at hl
    · simp; ring

theorem values_tail (g r : R) (rs : List R) : values g (r :: rs) = first (values g (r :: rs)) :: values g rs := by
  cases rs with
  | nil => simp [values, first]
  | cons r' rs =>
    have hl := values_length g (r' :: rs)
    unfold first
    rw [values]
    rcases hv : values g (r' :: rs) with _ | ⟨v, vs⟩
    · rw [hv] at hl; simp at hl
    · simp

theorem gaeGeneral_tail (g l : R) (V : S → R) (x : Tr R S) (ep : List (Tr R S)) :
    gaeGeneral g l V (x :: ep) = first (gaeGeneral g l V (x :: ep)) :: gaeGeneral g l V ep := by
  simp [gaeGeneral, gaeLoop, first]

theorem gaeLoop_second (g l : R) (V : S → R) (ep : List (Tr R S)) : (gaeLoop g l V ep).2.1 = first (gaeGeneral g l V ep) := by
  cases ep <;> simp [gaeGeneral, gaeLoop, first]

theorem first_gae (g l : R) (V : S → R) (x : Tr R S) (ep : List (Tr R S)) :
    first (gaeGeneral g l V (x :: ep)) =
      x.reward + g * (gaeLoop g l V ep).1 * notTerm x.terminal - V x.state + first (gaeGeneral g l V ep) * g * notTerm x.terminal * l := by
  rw [← gaeLoop_second, ← gaeLoop_second]
  simp only [gaeLoop]
  ring

/-- The values of the rest of an episode are its value on average. -/
theorem stepAvg_values (e : Env R S A Ω) (pi : S → A → R) (rank : S → Nat) (hr : Ending e rank) (hf : Fair e pi) (g : R)
    (Q : S → A → R) (V : S → R) (hx : Exact e pi g Q V) (n : Nat) (s : S) (a : A) (hn : rank s < n + 1) :
    stepAvg e pi n s a (fun ep => first (values g (ep.map (·.2.reward)))) = Q s a := by
  induction n generalizing s a with
  | zero =>
    rw [hx.action]
    refine Finset.sum_congr rfl fun o _ => ?_
    by_cases ht : e.term s a o = true
    · simp [ht, values, first, Env.tr]
    · have := hr s a o (by simpa using ht); omega
  | succ n ih =>
    rw [hx.action]
    refine Finset.sum_congr rfl fun o _ => ?_
    congr 1
    by_cases ht : e.term s a o = true
    · simp [ht, values, first, Env.tr]
    · rw [if_neg ht, if_neg ht]
      have hlt : rank (e.next s a o) < n + 1 := by have := hr s a o (by simpa using ht); omega
      simp only [List.map_cons, first_values]
      rw [avg_add, avg_const e pi hf, avg_mul]
      rw [avg_succ, Finset.sum_congr rfl fun a' _ => by rw [ih _ a' hlt], ← hx.state]
      rfl

/-- The advantage of a step is its value minus that of its state on average. -/
theorem stepAvg_gae (e : Env R S A Ω) (pi : S → A → R) (rank : S → Nat) (hr : Ending e rank) (hf : Fair e pi) (g l : R)
    (Q : S → A → R) (V : S → R) (hx : Exact e pi g Q V) (n : Nat) (s : S) (a : A) (hn : rank s < n + 1) :
    stepAvg e pi n s a (fun ep => first (gaeGeneral g l V (ep.map (·.2)))) = Q s a - V s := by
  have hterm : ∀ s a o, e.term s a o = true →
      first (gaeGeneral g l V ([(a, e.tr s a o)].map (·.2))) = e.reward s a o + g * (if e.term s a o = true then 0 else V (e.next s a o)) - V s := by
    intro s a o ht
    simp only [List.map_cons, List.map_nil, first_gae]
    simp [Env.tr, ht, notTerm, gaeGeneral, gaeLoop, first]
  have hsum : ∀ s a, ∑ o, e.prob s a o * (e.reward s a o + g * (if e.term s a o = true then 0 else V (e.next s a o)) - V s) = Q s a - V s := by
    intro s a
    simp only [mul_sub, Finset.sum_sub_distrib]
    rw [← Finset.sum_mul, hf.outcomes, one_mul, hx.action]
  induction n generalizing s a with
  | zero =>
    rw [← hsum]
    refine Finset.sum_congr rfl fun o _ => ?_
    congr 1
    by_cases ht : e.term s a o = true
    · rw [if_pos ht]; exact hterm s a o ht
    · have := hr s a o (by simpa using ht); omega
  | succ n ih =>
    rw [← hsum]
    refine Finset.sum_congr rfl fun o _ => ?_
    congr 1
    by_cases ht : e.term s a o = true
    · rw [if_pos ht]; exact hterm s a o ht
    · rw [if_neg ht, if_neg ht]
      have hlt : rank (e.next s a o) < n + 1 := by have := hr s a o (by simpa using ht); omega
      have h1 : avg e pi (n + 1) (e.next s a o) (fun ep => first (gaeGeneral g l V (((a, e.tr s a o) :: ep).map (·.2)))) =
          avg e pi (n + 1) (e.next s a o) (fun ep => (e.reward s a o + g * V (e.next s a o) - V s) +
            g * l * first (gaeGeneral g l V (ep.map (·.2)))) := by
        refine avg_congr _ _ _ _ _ _ fun ep hp => ?_
        obtain ⟨-, -, x, l', rfl, hxs⟩ := hp.shape hr hlt
        simp only [List.map_cons]
        rw [first_gae]
        have : (gaeLoop g l V (x.2 :: l'.map (·.2))).1 = V (e.next s a o) := by rw [← hxs]; rfl
        rw [this]
        simp [Env.tr, notTerm, ht]
        ring
      rw [h1, avg_add, avg_const e pi hf, avg_mul, avg_succ, Finset.sum_congr rfl fun a' _ => by rw [ih _ a' hlt]]
      have : ∑ a', pi (e.next s a o) a' * (Q (e.next s a o) a' - V (e.next s a o)) = 0 := by
        simp only [mul_sub, Finset.sum_sub_distrib]
        rw [← Finset.sum_mul, hf.actions, one_mul, ← hx.state, sub_self]
      rw [this]
      ring

end Machin.Returns
