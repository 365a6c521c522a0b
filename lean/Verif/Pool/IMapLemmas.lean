import Verif.Pool.Lemmas

/-! # Lemmas about the iterators of `imap` -/

namespace Machin.Pool

open Spec

variable {β ε : Type}

theorem delivered_append (a b : List IEv) : delivered (a ++ b) = delivered a ++ delivered b := by
  induction a with
  | nil => rfl
  | cons e a ih => cases e <;> simp [delivered, ih]

/-- The state of an ordered iterator before (`gap = 0`) and after (`gap = 1`) draining. -/
structure IInv (out : Nat → Obj β ε) (n : Nat) (D : List Nat) (it : IMap β ε) (ys : List (Obj β ε)) : Prop where
  seq : ys ++ it.items = (List.range it.index).map out
  len : it.length = n
  below : ∀ i < it.index, i ∈ D
  wf : it.unsorted.WF
  pending : ∀ i, it.unsorted.get? i = if i ∈ D ∧ it.index ≤ i then some (out i) else none

theorem erase_length {γ : Type} (d : PyDict Nat γ) (k : Nat) (v : γ) (h : d.get? k = some v) :
    (d.erase k).length < d.length := by
  have hm := PyDict.mem_of_get? h
  unfold PyDict.erase
  apply List.length_filter_lt_length_iff_exists.mpr
  exact ⟨(k, v), hm, by simp⟩

theorem IInv.drain (out : Nat → Obj β ε) (n : Nat) (D : List Nat) (ys : List (Obj β ε)) (fuel : Nat) (it : IMap β ε)
    (h : IInv out n D it ys) (hf : it.unsorted.length ≤ fuel) :
    IInv out n D (IMap.drain fuel it) ys ∧ (IMap.drain fuel it).index ∉ D ∧
      it.items.length ≤ (IMap.drain fuel it).items.length := by
  induction fuel generalizing it with
  | zero =>
    have hnil : it.unsorted = [] := List.length_eq_zero_iff.mp (by omega)
    refine ⟨h, ?_, Nat.le_refl _⟩
    intro hd
    have hp := h.pending it.index
    rw [hnil, if_pos ⟨hd, Nat.le_refl _⟩] at hp
    simp at hp
  | succ fuel ih =>
    unfold IMap.drain
    have hp := h.pending it.index
    cases hg : it.unsorted.get? it.index with
    | none =>
      refine ⟨h, ?_, Nat.le_refl _⟩
      intro hd
      rw [hg, if_pos ⟨hd, Nat.le_refl _⟩] at hp
      cases hp
    | some obj =>
      rw [hg] at hp
      have hd : it.index ∈ D := by
        by_contra hc
        rw [if_neg (fun q => hc q.1)] at hp
        cases hp
      rw [if_pos ⟨hd, Nat.le_refl _⟩] at hp
      have ho : obj = out it.index := Option.some.inj hp
      have hl := erase_length it.unsorted it.index obj hg
      have key := ih { it with items := it.items ++ [obj], index := it.index + 1,
                               unsorted := it.unsorted.erase it.index }
        { seq := by
            simp only
            rw [← List.append_assoc, h.seq, List.range_succ, List.map_append, ho]
            rfl
          len := h.len
          below := by
            intro i hi
            simp only at hi
            rcases Nat.lt_or_ge i it.index with q | q
            · exact h.below i q
            · have : i = it.index := by omega
              rw [this]; exact hd
          wf := h.wf.erase _
          pending := by
            intro i
            simp only
            rw [PyDict.get?_erase, h.pending i]
            by_cases hi : i = it.index
            · subst hi
              rw [if_pos rfl, if_neg]
              omega
            · rw [if_neg hi]
              by_cases hd' : i ∈ D
              · by_cases hle : it.index ≤ i
                · rw [if_pos ⟨hd', hle⟩, if_pos ⟨hd', by omega⟩]
                · rw [if_neg (fun q => hle q.2), if_neg (fun q => hle (by have := q.2; omega))]
              · rw [if_neg (fun q => hd' q.1), if_neg (fun q => hd' q.1)] }
        (by simp only; omega)
      refine ⟨key.1, key.2.1, ?_⟩
      have := key.2.2
      simp only [List.length_append, List.length_singleton] at this
      dsimp only
      omega

theorem IInv.set (out : Nat → Obj β ε) (n : Nat) (D : List Nat) (ys : List (Obj β ε)) (it : IMap β ε)
    (h : IInv out n D it ys) (hgap : it.index ∉ D) (i : Nat) (hi : i ∉ D) :
    IInv out n (D ++ [i]) (it.set i (out i)).1 ys ∧ (it.set i (out i)).1.index ∉ D ++ [i] ∧
      ((it.set i (out i)).2 = true → (it.set i (out i)).1.items ≠ []) := by
  unfold IMap.set
  by_cases hx : it.index = i
  · rw [if_pos hx]
    have key := IInv.drain out n (D ++ [i]) ys it.unsorted.length
      { it with items := it.items ++ [out i], index := it.index + 1 }
      { seq := by
          simp only
          rw [← List.append_assoc, h.seq, List.range_succ, List.map_append, hx]
          rfl
        len := h.len
        below := by
          intro j hj
          simp only at hj
          rcases Nat.lt_or_ge j it.index with q | q
          · exact List.mem_append_left _ (h.below j q)
          · have : j = i := by omega
            simp [this]
        wf := h.wf
        pending := by
          intro j
          simp only
          rw [h.pending j]
          by_cases hj : j = i
          · subst hj
            rw [if_neg (fun q => hi q.1), if_neg]
            omega
          · by_cases hd' : j ∈ D
            · by_cases hle : it.index ≤ j
              · rw [if_pos ⟨hd', hle⟩, if_pos ⟨by simp [hd'], by omega⟩]
              · rw [if_neg (fun q => hle q.2), if_neg (fun q => hle (by have := q.2; omega))]
            · rw [if_neg (fun q => hd' q.1), if_neg]
              simp [hd', hj] }
      (Nat.le_refl _)
    refine ⟨key.1, key.2.1, ?_⟩
    intro _ hnil
    have := key.2.2
    rw [hnil] at this
    simp at this
  · rw [if_neg hx]
    refine ⟨?_, ?_, ?_⟩
    · exact
        { seq := h.seq
          len := h.len
          below := fun j hj => List.mem_append_left _ (h.below j hj)
          wf := h.wf.set _ _
          pending := by
            intro j
            simp only
            rw [PyDict.get?_set, h.pending j]
            by_cases hj : j = i
            · subst hj
              rw [if_pos rfl, if_pos]
              refine ⟨by simp, ?_⟩
              by_contra hc
              exact hi (h.below j (by omega))
            · rw [if_neg hj]
              simp [hj] }
    · simp only [List.mem_append, List.mem_singleton, not_or]
      exact ⟨hgap, hx⟩
    · intro hf
      cases hf

theorem iRun_append (ordered : Bool) (out : Nat → Obj β ε) (n : Nat) (evs : List IEv) (e : IEv) :
    iRun ordered out n (evs ++ [e]) = iStep ordered out (iRun ordered out n evs) e := by
  simp [iRun]

theorem iInv_run (out : Nat → Obj β ε) (n : Nat) (evs : List IEv) (hnd : (delivered evs).Nodup) :
    IInv out n (delivered evs) (iRun true out n evs).1 (iRun true out n evs).2 ∧
      (iRun true out n evs).1.index ∉ delivered evs := by
  induction evs using List.reverseRecOn with
  | nil =>
    refine ⟨⟨rfl, rfl, ?_, ?_, ?_⟩, by simp [delivered]⟩
    · intro i hi; simp [iRun, IMap.new] at hi
    · simp [iRun, IMap.new, PyDict.WF, PyDict.keys]
    · intro i; simp [iRun, IMap.new, delivered]
  | append_singleton evs e ih =>
    rw [iRun_append]
    rw [delivered_append] at hnd ⊢
    have ih := ih (List.nodup_append.mp hnd).1
    cases e with
    | deliver i =>
      have hi : i ∉ delivered evs := by
        intro h
        exact (List.nodup_append.mp hnd).2.2 i h i (by simp [delivered]) rfl
      have key := IInv.set out n _ _ _ ih.1 ih.2 i hi
      simp only [iStep, if_true, delivered]
      exact ⟨key.1, key.2.1⟩
    | next =>
      simp only [delivered, List.append_nil]
      unfold iStep IMap.next
      generalize hit : iRun true out n evs = s at *
      rcases s with ⟨it, ys⟩
      rcases hi : it.items with _ | ⟨o, items⟩
      · dsimp only
        by_cases hx : it.index = it.length
        · rw [if_pos hx]
          exact ih
        · rw [if_neg hx]
          exact ih
      · dsimp only
        refine ⟨⟨?_, ih.1.len, ih.1.below, ih.1.wf, ih.1.pending⟩, ih.2⟩
        have := ih.1.seq
        simp only [hi] at this
        simpa using this

/-- The state of an unordered iterator. -/
structure UInv (out : Nat → Obj β ε) (n : Nat) (D : List Nat) (it : IMap β ε) (ys : List (Obj β ε)) : Prop where
  seq : ys ++ it.items = D.map out
  index : it.index = D.length
  len : it.length = n

theorem uInv_run (out : Nat → Obj β ε) (n : Nat) (evs : List IEv) :
    UInv out n (delivered evs) (iRun false out n evs).1 (iRun false out n evs).2 := by
  induction evs using List.reverseRecOn with
  | nil => exact ⟨rfl, rfl, rfl⟩
  | append_singleton evs e ih =>
    rw [iRun_append, delivered_append]
    cases e with
    | deliver i =>
      simp only [iStep, delivered, IMap.setUnordered]
      refine ⟨?_, ?_, ih.len⟩
      · simp only [Bool.false_eq_true, if_false]
        rw [← List.append_assoc, ih.seq]; simp
      · simp [ih.index]
    | next =>
      simp only [delivered, List.append_nil]
      unfold iStep IMap.next
      generalize hit : iRun false out n evs = s at *
      rcases s with ⟨it, ys⟩
      rcases hi : it.items with _ | ⟨o, items⟩
      · dsimp only
        by_cases hx : it.index = it.length
        · rw [if_pos hx]
          exact ih
        · rw [if_neg hx]
          exact ih
      · dsimp only
        refine ⟨?_, ih.index, ih.len⟩
        have := ih.seq
        simp only [hi] at this
        simpa using this

end Machin.Pool
