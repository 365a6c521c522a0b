import Verif.Algo.Names

/-! # Lemmas on the look-up of names -/

namespace Machin.Algo

theorem addFrame_get (f : PyDict String PObj) : ∀ (acc : PyDict String PObj), f.WF → ∀ k,
    (addFrame acc f).get? k = if underscored k then acc.get? k else (f.get? k).or (acc.get? k) := by
  induction f with
  | nil => intro acc _ k; simp [addFrame]
  | cons p l ih =>
    obtain ⟨k0, v⟩ := p
    intro acc hw k
    have hw' : PyDict.WF l ∧ k0 ∉ PyDict.keys l := by
      unfold PyDict.WF PyDict.keys at *
      rw [List.map_cons, List.nodup_cons] at hw
      exact ⟨hw.2, hw.1⟩
    rw [addFrame, ih _ hw'.1, PyDict.get?_cons]
    by_cases hu : underscored k = true
    · rw [if_pos hu, if_pos hu]
      by_cases h0 : underscored k0 = true
      · rw [if_pos h0]
      · rw [if_neg h0, PyDict.get?_set_ne]
        rintro rfl
        exact h0 hu
    · rw [if_neg hu, if_neg hu]
      by_cases hk : k = k0
      · subst hk
        rw [if_neg hu, (PyDict.get?_eq_none_iff l k).2 hw'.2, PyDict.get?_set_self]
        simp
      · have hk' : ¬ k0 = k := fun h => hk h.symm
        by_cases h0 : underscored k0 = true
        · rw [if_pos h0]; simp [hk']
        · rw [if_neg h0, PyDict.get?_set_ne _ hk]; simp [hk']

theorem stack_get (frames : List (PyDict String PObj)) : ∀ (acc : PyDict String PObj), (∀ f ∈ frames, f.WF) → ∀ k,
    (frames.foldl addFrame acc).get? k =
      if underscored k then acc.get? k else ((frames.filterMap fun f => f.get? k).getLast?).or (acc.get? k) := by
  induction frames with
  | nil => intro acc _ k; simp
  | cons f fs ih =>
    intro acc hw k
    rw [List.foldl_cons, ih _ (fun g hg => hw g (by simp [hg])), addFrame_get f acc (hw f (by simp))]
    by_cases hu : underscored k = true
    · simp [hu]
    · simp only [hu, Bool.false_eq_true, if_false, List.filterMap_cons]
      cases hf : f.get? k with
      | none => simp
      | some o =>
        rw [List.getLast?_cons]
        cases (fs.filterMap fun f => f.get? k).getLast? <;> simp

/-! ### Dots -/

/-- Not a function of the code: `".".join(parts)`. -/
def joinDot : List (List Char) → List Char
  | [] => []
  | [p] => p
  | p :: q :: l => p ++ '.' :: joinDot (q :: l)

theorem splitDot_ne (l : List Char) : splitDot l ≠ [] := by
  cases l with
  | nil => simp [splitDot]
  | cons c cs =>
    rw [splitDot]
    split
    · simp
    · split <;> simp

theorem splitDot_plain (p : List Char) (h : '.' ∉ p) : splitDot p = [p] := by
  induction p with
  | nil => rfl
  | cons c cs ih =>
    rw [splitDot, if_neg (by rintro rfl; simp at h), ih (fun hc => h (by simp [hc]))]

theorem splitDot_append (p r : List Char) (h : '.' ∉ p) : splitDot (p ++ '.' :: r) = p :: splitDot r := by
  induction p with
  | nil => simp [splitDot]
  | cons c cs ih =>
    rw [List.cons_append, splitDot, if_neg (by rintro rfl; simp at h), ih (fun hc => h (by simp [hc]))]

theorem splitDot_join : ∀ (l : List (List Char)), l ≠ [] → (∀ p ∈ l, '.' ∉ p) → splitDot (joinDot l) = l
  | [], h, _ => absurd rfl h
  | [p], _, h => splitDot_plain p (h p (by simp))
  | p :: q :: l, _, h => by
    rw [joinDot, splitDot_append _ _ (h p (by simp)), splitDot_join (q :: l) (by simp) (fun x hx => h x (by simp [hx]))]

theorem join_splitDot (l : List Char) : joinDot (splitDot l) = l ∧ ∀ p ∈ splitDot l, '.' ∉ p := by
  induction l with
  | nil => simp [splitDot, joinDot]
  | cons c cs ih =>
    rw [splitDot]
    obtain ⟨ih1, ih2⟩ := ih
    cases hs : splitDot cs with
    | nil => exact absurd hs (splitDot_ne cs)
    | cons p ps =>
      rw [hs] at ih1 ih2
      by_cases hc : c = '.'
      · subst hc
        rw [if_pos rfl]
        refine ⟨by rw [joinDot, ih1]; rfl, ?_⟩
        intro q hq
        rcases List.mem_cons.1 hq with rfl | hq
        · simp
        · exact ih2 q hq
      · rw [if_neg hc]
        refine ⟨?_, ?_⟩
        · cases ps with
          | nil => simp only [joinDot] at ih1 ⊢; rw [ih1]
          | cons q l => simp only [joinDot, List.cons_append] at ih1 ⊢; rw [ih1]
        · intro q hq
          rcases List.mem_cons.1 hq with rfl | hq
          · have := ih2 p (by simp)
            simp only [List.mem_cons, not_or]
            exact ⟨fun h => hc h.symm, this⟩
          · exact ih2 q (by simp [hq])

theorem walk_path (s : Modules) (c : List Char) (v : Thing) (rest : List (List Char)) : ∀ base : List (List Char),
    (∀ q x, q ++ [x] <+: rest → s.binds (base ++ q) x = none) → s.binds (base ++ rest) c = some v →
    ((∀ q, q ≠ [] → q <+: rest → base ++ q ∈ s.loaded) → s.walk (.module_ base) (rest ++ [c]) = .ok v) ∧
    ((∃ q, q ≠ [] ∧ q <+: rest ∧ base ++ q ∉ s.loaded) → s.walk (.module_ base) (rest ++ [c]) = .error .attribute) := by
  induction rest with
  | nil =>
    intro base _ hv
    rw [List.append_nil] at hv
    refine ⟨fun _ => by simp [Modules.walk, Modules.getattr, hv], ?_⟩
    rintro ⟨q, hq, hp, -⟩
    exact absurd (List.prefix_nil.1 hp) hq
  | cons x rest ih =>
    intro base hb hv
    have h0 : s.binds base x = none := by simpa using hb [] x (by simp)
    have hstep : ∀ q, base ++ [x] ++ q = base ++ x :: q := fun q => by simp
    have ih' := ih (base ++ [x]) (fun q y hq => by
      rw [hstep]; exact hb (x :: q) y (by simpa using hq)) (by rw [hstep]; exact hv)
    simp only [List.cons_append, Modules.walk, Modules.getattr, h0]
    by_cases hl : base ++ [x] ∈ s.loaded
    · rw [if_pos hl]
      refine ⟨fun h => ih'.1 fun q hq hp => ?_, ?_⟩
      · rw [hstep]; exact h (x :: q) (by simp) (by simpa using hp)
      · rintro ⟨q, hq, hp, hn⟩
        cases q with
        | nil => exact absurd rfl hq
        | cons y q =>
          obtain ⟨rfl, hp'⟩ := List.cons_prefix_cons.1 hp
          refine ih'.2 ⟨q, ?_, hp', by rw [hstep]; exact hn⟩
          rintro rfl
          exact hn hl
    · rw [if_neg hl]
      refine ⟨fun h => absurd (h [x] (by simp) (by simp)) hl, fun _ => rfl⟩

theorem underscored_iff (k : String) : underscored k = true ↔ ∃ cs, k.toList = '_' :: '_' :: cs := by
  unfold underscored
  rcases k.toList with _ | ⟨a, _ | ⟨b, l⟩⟩ <;> simp

end Machin.Algo
