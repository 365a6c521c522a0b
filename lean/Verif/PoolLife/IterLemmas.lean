import Verif.PoolLife.Iter

/-! # Lemmas about consumers that wait -/

namespace Machin.PoolLife

/-- Does the step belong to consumer `c` (or to the pool)? -/
def OnlyBy (c : Nat) : IStep → Prop
  | .result _ _ => True
  | .next c' => c' = c
  | .wake c' => c' = c

theorem flush_waiting (fuel : Nat) (it : Iter) : (Iter.flush fuel it).waiting = it.waiting ∧
    (Iter.flush fuel it).woken = it.woken ∧ (Iter.flush fuel it).outs = it.outs ∧
    (Iter.flush fuel it).length = it.length ∧ (it.items ≠ [] → (Iter.flush fuel it).items ≠ []) := by
  induction fuel generalizing it with
  | zero => exact ⟨rfl, rfl, rfl, rfl, id⟩
  | succ fuel ih =>
    unfold Iter.flush
    split
    · rename_i v _
      have := ih { it with items := it.items ++ [v], index := it.index + 1, unsorted := it.unsorted.erase it.index }
      exact ⟨this.1, this.2.1, this.2.2.1, this.2.2.2.1, fun _ => this.2.2.2.2 (by simp)⟩
    · exact ⟨rfl, rfl, rfl, rfl, id⟩

theorem notify_items (it : Iter) : it.notify.items = it.items ∧ it.notify.outs = it.outs ∧ it.notify.index = it.index ∧
    it.notify.length = it.length := by
  unfold Iter.notify
  split <;> exact ⟨rfl, rfl, rfl, rfl⟩

/-- The invariant for a single consumer. -/
structure One (c : Nat) (it : Iter) : Prop where
  shape : (it.waiting = [] ∧ it.woken = []) ∨ (it.waiting = [c] ∧ it.woken = [] ∧ it.items = [] ∧ it.index ≠ it.length) ∨
    (it.waiting = [] ∧ it.woken = [c] ∧ it.items ≠ [])
  quiet : ∀ p ∈ it.outs, p.2 ≠ .timeoutError

theorem One.new (c length : Nat) : One c (Iter.new length) := ⟨Or.inl ⟨rfl, rfl⟩, fun p hp => by cases hp⟩

theorem One.notify {c : Nat} {it : Iter} (h : (it.waiting = [] ∧ it.woken = []) ∨ (it.waiting = [c] ∧ it.woken = []) ∨
    (it.waiting = [] ∧ it.woken = [c])) (hi : it.items ≠ []) (hq : ∀ p ∈ it.outs, p.2 ≠ .timeoutError) : One c it.notify := by
  rcases h with ⟨h1, h2⟩ | ⟨h1, h2⟩ | ⟨h1, h2⟩
  · simp only [Iter.notify, h1]
    exact ⟨Or.inl ⟨h1, h2⟩, hq⟩
  · simp only [Iter.notify, h1]
    exact ⟨Or.inr (Or.inr ⟨rfl, by simp [h2], hi⟩), hq⟩
  · simp only [Iter.notify, h1]
    exact ⟨Or.inr (Or.inr ⟨h1, h2, hi⟩), hq⟩

theorem One.step {c : Nat} (ordered : Bool) {it : Iter} (h : One c it) (st : IStep) (hs : OnlyBy c st) :
    One c (istep ordered it st) := by
  have hsh : (it.waiting = [] ∧ it.woken = []) ∨ (it.waiting = [c] ∧ it.woken = []) ∨ (it.waiting = [] ∧ it.woken = [c]) := by
    rcases h.shape with h' | ⟨a, b, _⟩ | ⟨a, b, _⟩
    · exact Or.inl h'
    · exact Or.inr (Or.inl ⟨a, b⟩)
    · exact Or.inr (Or.inr ⟨a, b⟩)
  cases st with
  | result i v =>
    unfold istep
    dsimp only
    split
    · unfold Iter.set
      split
      · have hf := flush_waiting it.unsorted.length { it with items := it.items ++ [v], index := it.index + 1 }
        refine One.notify ?_ (hf.2.2.2.2 (by simp)) ?_
        · rw [hf.1, hf.2.1]; exact hsh
        · rw [hf.2.2.1]; exact h.quiet
      · exact ⟨h.shape, h.quiet⟩
    · exact One.notify hsh (by simp) h.quiet
  | next c' =>
    cases hs
    unfold istep
    dsimp only
    split
    · exact h
    · rename_i hn
      have h0 : it.waiting = [] ∧ it.woken = [] := by
        rcases hsh with h' | ⟨a, b⟩ | ⟨a, b⟩
        · exact h'
        · exact absurd (Or.inl (by simp [a])) hn
        · exact absurd (Or.inr (by simp [b])) hn
      split
      · refine ⟨Or.inl h0, ?_⟩
        intro p hp
        rcases List.mem_append.1 hp with hp | hp
        · exact h.quiet p hp
        · rw [List.mem_singleton.1 hp]; simp
      · rename_i hi
        split
        · refine ⟨Or.inl h0, ?_⟩
          intro p hp
          rcases List.mem_append.1 hp with hp | hp
          · exact h.quiet p hp
          · rw [List.mem_singleton.1 hp]; simp
        · rename_i hne
          exact ⟨Or.inr (Or.inl ⟨by simp [h0.1], h0.2, hi, hne⟩), h.quiet⟩
  | wake c' =>
    cases hs
    unfold istep
    dsimp only
    split
    · rename_i hw
      have h2 : it.waiting = [] ∧ it.woken = [c] ∧ it.items ≠ [] := by
        rcases h.shape with ⟨a, b⟩ | ⟨a, b, _⟩ | h'
        · rw [b] at hw; cases hw
        · rw [b] at hw; cases hw
        · exact h'
      split
      · refine ⟨Or.inl ⟨h2.1, by simp [h2.2.1]⟩, ?_⟩
        intro p hp
        rcases List.mem_append.1 hp with hp | hp
        · exact h.quiet p hp
        · rw [List.mem_singleton.1 hp]; simp
      · rename_i hi; exact absurd hi h2.2.2
    · exact h

theorem One.run {c : Nat} (ordered : Bool) (steps : List IStep) (hs : ∀ st ∈ steps, OnlyBy c st) {it : Iter} (h : One c it) :
    One c (irun ordered it steps) := by
  induction steps generalizing it with
  | nil => exact h
  | cons st sts ih =>
    exact ih (fun x hx => hs x (List.mem_cons_of_mem _ hx)) (h.step ordered st (hs st List.mem_cons_self))

/-- The invariant of the unordered iterator: while somebody waits, every available item has been announced to somebody. -/
def Announced (it : Iter) : Prop := it.waiting ≠ [] → it.items.length ≤ it.woken.length

theorem Announced.step {it : Iter} (h : Announced it) (st : IStep) : Announced (istep false it st) := by
  cases st with
  | result i v =>
    unfold istep Iter.setUnordered Iter.notify
    simp only [Bool.false_eq_true, if_false]
    split
    · rename_i hw; intro hc; exact absurd hw hc
    · rename_i c rest hw
      intro _
      have := h (by rw [hw]; simp)
      simp only [List.length_append, List.length_singleton]
      omega
  | next c =>
    unfold istep
    dsimp only
    split
    · exact h
    · split
      · rename_i hi
        intro hc
        have := h hc
        rw [hi, List.length_cons] at this
        dsimp only
        omega
      · rename_i hi
        split
        · exact h
        · intro _; dsimp only; rw [hi]; exact Nat.zero_le _
  | wake c =>
    unfold istep
    dsimp only
    split
    · rename_i hw
      split
      · rename_i hi
        intro hc
        have := h hc
        rw [hi, List.length_cons] at this
        dsimp only
        rw [List.length_erase_of_mem hw]
        omega
      · rename_i hi
        intro _; dsimp only; rw [hi]; exact Nat.zero_le _
    · exact h

theorem Announced.run (steps : List IStep) {it : Iter} (h : Announced it) : Announced (irun false it steps) := by
  induction steps generalizing it with
  | nil => exact h
  | cons st sts ih => exact ih (h.step st)

end Machin.PoolLife
