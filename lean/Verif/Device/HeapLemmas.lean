import Verif.Device.HeapSpec

/-! # Lemmas about storing by deep copy -/

namespace Machin.Device

open Spec Replay

/-- Objects from `n` on refer to objects from `n` on. -/
def WF (n : Nat) (h : Heap) : Prop := ∀ a, n ≤ a → a < h.size → ∀ r ∈ (h.obj a).refs, n ≤ r ∧ r < h.size

theorem readTensor_congr {h h' : Heap} {a : Nat} (e : h'.obj a = h.obj a) : h'.readTensor a = h.readTensor a := by
  simp [Heap.readTensor, e]

theorem read_congr {h h' : Heap} {a : Nat} (e : h'.obj a = h.obj a) (er : ∀ r ∈ (h.obj a).refs, h'.readTensor r = h.readTensor r) :
    h'.read a = h.read a := by
  unfold Heap.read
  rw [e]
  cases ho : h.obj a with
  | tensor d x => rfl
  | other n => rfl
  | dict items =>
    simp only [Leaf.dict.injEq]
    apply List.map_congr_left
    intro x hx
    rw [er x.2 (by rw [ho]; exact List.mem_map_of_mem hx)]

theorem readVal_congr {h h' : Heap} {v : Val} (e : ∀ a ∈ v.refs, h'.read a = h.read a) : h'.readVal v = h.readVal v := by
  cases v with
  | num n => rfl
  | ref a => exact e a (by simp [Val.refs])

theorem readT_congr {h h' : Heap} {t : TObj} (e : ∀ a ∈ t.refs, h'.read a = h.read a) : h'.readT t = h.readT t := by
  unfold Heap.readT
  have h1 : (t.major.map fun x => (x.1, h'.read x.2)) = t.major.map fun x => (x.1, h.read x.2) := by
    apply List.map_congr_left
    intro x hx
    rw [e x.2 (by simp only [TObj.refs, List.mem_append]; exact Or.inl (Or.inl (List.mem_map_of_mem hx)))]
  have h2 : (t.sub.map fun x => (x.1, h'.readVal x.2)) = t.sub.map fun x => (x.1, h.readVal x.2) := by
    apply List.map_congr_left
    intro x hx
    rw [readVal_congr]
    intro a ha
    apply e
    simp only [TObj.refs, List.mem_append]
    exact Or.inl (Or.inr (List.mem_flatMap.2 ⟨x, hx, ha⟩))
  have h3 : (t.custom.map fun x => (x.1, h'.readVal x.2)) = t.custom.map fun x => (x.1, h.readVal x.2) := by
    apply List.map_congr_left
    intro x hx
    rw [readVal_congr]
    intro a ha
    apply e
    simp only [TObj.refs, List.mem_append]
    exact Or.inr (List.mem_flatMap.2 ⟨x, hx, ha⟩)
  rw [h1, h2, h3]

/-- Reading inside a closed set of addresses that have not changed. -/
theorem readT_closed {h h' : Heap} {t : TObj} (P : Nat → Prop) (hc : ∀ a, P a → ∀ r ∈ (h.obj a).refs, P r)
    (hs : ∀ a, P a → h'.obj a = h.obj a) (ht : ∀ r ∈ t.refs, P r) : h'.readT t = h.readT t :=
  readT_congr fun a ha => read_congr (hs a (ht a ha)) fun r hr => readTensor_congr (hs r (hc a (ht a ha) r hr))

/-! ### Moving -/

theorem toDev_spec (d n : Nat) (h : Heap) (hw : WF n h) (a : Nat) (hn : n ≤ a) (ha : a < h.size) :
    h.size ≤ (h.toDev d a).1.size ∧ (∀ b, b < h.size → (h.toDev d a).1.obj b = h.obj b) ∧ WF n (h.toDev d a).1 ∧
      n ≤ (h.toDev d a).2 ∧ (h.toDev d a).2 < (h.toDev d a).1.size ∧
      (h.toDev d a).1.readTensor (h.toDev d a).2 = (h.readTensor a).map (fun y => (d, y.2)) ∧
      (h.toDev d a).1.read (h.toDev d a).2 = movedTensor d (h.read a) := by
  unfold Heap.toDev
  cases ho : h.obj a with
  | dict items =>
    refine ⟨Nat.le_refl _, fun _ _ => rfl, hw, hn, ha, by simp [Heap.readTensor, ho], by simp [Heap.read, ho, movedTensor]⟩
  | other x =>
    refine ⟨Nat.le_refl _, fun _ _ => rfl, hw, hn, ha, by simp [Heap.readTensor, ho], by simp [Heap.read, ho, movedTensor]⟩
  | tensor e x =>
    simp only
    by_cases he : e = d
    · rw [if_pos he]
      refine ⟨Nat.le_refl _, fun _ _ => rfl, hw, hn, ha, by simp [Heap.readTensor, ho, he], by simp [Heap.read, ho, movedTensor, he]⟩
    · rw [if_neg he]
      refine ⟨by simp [Heap.alloc], ?_, ?_, by simp only; omega, by simp [Heap.alloc], by simp [Heap.alloc, Heap.readTensor, ho],
        by simp [Heap.alloc, Heap.read, ho, movedTensor]⟩
      · intro b hb
        simp only [Heap.alloc]
        rw [if_neg (by omega)]
      · intro b hb1 hb2 r hr
        simp only [Heap.alloc] at hb2 hr ⊢
        by_cases hbs : b = h.size
        · rw [if_pos hbs] at hr
          simp [Obj.refs] at hr
        · rw [if_neg hbs] at hr
          have := hw b hb1 (by omega) r hr
          omega

theorem toItems_spec (d n : Nat) (items : List (String × Nat)) : ∀ (h : Heap), WF n h → (∀ x ∈ items, n ≤ x.2 ∧ x.2 < h.size) →
    h.size ≤ (h.toItems d items).1.size ∧ (∀ b, b < h.size → (h.toItems d items).1.obj b = h.obj b) ∧ WF n (h.toItems d items).1 ∧
      (∀ x ∈ (h.toItems d items).2, n ≤ x.2 ∧ x.2 < (h.toItems d items).1.size) ∧
      (h.toItems d items).2.map (fun x => (x.1, (h.toItems d items).1.readTensor x.2)) =
        items.map (fun x => (x.1, (h.readTensor x.2).map (fun y => (d, y.2)))) := by
  induction items with
  | nil => intro h hw _; exact ⟨Nat.le_refl _, fun _ _ => rfl, hw, by simp [Heap.toItems], rfl⟩
  | cons x items ih =>
    intro h hw hin
    obtain ⟨k, a⟩ := x
    have ha := hin (k, a) (by simp)
    obtain ⟨d1, d2, d3, d4, d5, d6, -⟩ := toDev_spec d n h hw a ha.1 ha.2
    obtain ⟨i1, i2, i3, i4, i5⟩ := ih (h.toDev d a).1 d3 (fun x hx => by
      have := hin x (by simp [hx])
      exact ⟨this.1, by omega⟩)
    simp only [Heap.toItems]
    refine ⟨by omega, ?_, i3, ?_, ?_⟩
    · intro b hb
      rw [i2 b (by omega), d2 b hb]
    · intro x hx
      rcases List.mem_cons.1 hx with rfl | hx
      · exact ⟨d4, by simp only; omega⟩
      · exact i4 x hx
    · rw [List.map_cons, List.map_cons, i5]
      congr 1
      · rw [readTensor_congr (i2 _ d5), d6]
      · apply List.map_congr_left
        intro x hx
        rw [readTensor_congr (d2 x.2 (hin x (by simp [hx])).2)]

theorem movedDict_idem (d : Nat) (l : Leaf) : movedDict d (movedDict d l) = movedDict d l := by
  cases l with
  | dict items => simp [movedDict, List.map_map, Function.comp_def, Option.map_map]
  | tensor _ _ => rfl
  | other _ => rfl
  | num _ => rfl

theorem toMajor_spec (d n : Nat) (ms : List (String × Nat)) : ∀ (h : Heap), WF n h → (∀ x ∈ ms, n ≤ x.2 ∧ x.2 < h.size) →
    h.size ≤ (h.toMajor d ms).size ∧ (∀ b, b < n → b < h.size → (h.toMajor d ms).obj b = h.obj b) ∧ WF n (h.toMajor d ms) ∧
      (∀ r, r < h.size → (h.toMajor d ms).readTensor r = h.readTensor r) ∧
      ∀ b, n ≤ b → b < h.size → (h.toMajor d ms).read b = if b ∈ ms.map (·.2) then movedDict d (h.read b) else h.read b := by
  induction ms with
  | nil => intro h hw _; exact ⟨Nat.le_refl _, fun _ _ _ => rfl, hw, fun _ _ => rfl, by simp [Heap.toMajor]⟩
  | cons x ms ih =>
    intro h hw hin
    obtain ⟨k, a⟩ := x
    have ha := hin (k, a) (by simp)
    simp only at ha
    cases ho : h.obj a with
    | tensor e y =>
      have e1 : h.toMajor d ((k, a) :: ms) = h.toMajor d ms := by simp [Heap.toMajor, ho]
      rw [e1]
      obtain ⟨i1, i2, i3, i4, i5⟩ := ih h hw (fun x hx => hin x (by simp [hx]))
      refine ⟨i1, i2, i3, i4, ?_⟩
      intro b hb1 hb2
      rw [i5 b hb1 hb2]
      by_cases hba : b = a
      · have : movedDict d (h.read b) = h.read b := by rw [hba]; simp [Heap.read, ho, movedDict]
        simp only [this]
        split <;> split <;> rfl
      · simp only [List.map_cons, List.mem_cons, hba, false_or]
    | other y =>
      have e1 : h.toMajor d ((k, a) :: ms) = h.toMajor d ms := by simp [Heap.toMajor, ho]
      rw [e1]
      obtain ⟨i1, i2, i3, i4, i5⟩ := ih h hw (fun x hx => hin x (by simp [hx]))
      refine ⟨i1, i2, i3, i4, ?_⟩
      intro b hb1 hb2
      rw [i5 b hb1 hb2]
      by_cases hba : b = a
      · have : movedDict d (h.read b) = h.read b := by rw [hba]; simp [Heap.read, ho, movedDict]
        simp only [this]
        split <;> split <;> rfl
      · simp only [List.map_cons, List.mem_cons, hba, false_or]
    | dict items =>
      have hits : ∀ x ∈ items, n ≤ x.2 ∧ x.2 < h.size := by
        intro x hx
        exact hw a ha.1 ha.2 x.2 (by rw [ho]; exact List.mem_map_of_mem hx)
      obtain ⟨t1, t2, t3, t4, t5⟩ := toItems_spec d n items h hw hits
      have e1 : h.toMajor d ((k, a) :: ms) = ((h.toItems d items).1.set a (.dict (h.toItems d items).2)).toMajor d ms := by
        simp [Heap.toMajor, ho]
      rw [e1]
      generalize hh2 : (h.toItems d items).1.set a (.dict (h.toItems d items).2) = h2
      have hsz : h2.size = (h.toItems d items).1.size := by rw [← hh2]; rfl
      have hoa : h2.obj a = .dict (h.toItems d items).2 := by rw [← hh2]; simp [Heap.set]
      have hob : ∀ b, b ≠ a → h2.obj b = (h.toItems d items).1.obj b := by
        intro b hb
        rw [← hh2]
        simp [Heap.set, hb]
      have hrt : ∀ r, h2.readTensor r = (h.toItems d items).1.readTensor r := by
        intro r
        by_cases hr : r = a
        · subst hr
          simp [Heap.readTensor, hoa, t2 r ha.2, ho]
        · exact readTensor_congr (hob r hr)
      have hw2 : WF n h2 := by
        intro b hb1 hb2 r hr
        rw [hsz] at hb2 ⊢
        by_cases hba : b = a
        · rw [hba, hoa] at hr
          obtain ⟨x, hx, rfl⟩ := List.mem_map.1 hr
          exact t4 x hx
        · rw [hob b hba] at hr
          exact t3 b hb1 hb2 r hr
      have hread : ∀ b, n ≤ b → b < h.size → h2.read b = if b = a then movedDict d (h.read b) else h.read b := by
        intro b hb1 hb2
        by_cases hba : b = a
        · rw [if_pos hba, hba]
          have : h2.read a = .dict ((h.toItems d items).2.map fun x => (x.1, h2.readTensor x.2)) := by
            simp [Heap.read, hoa]
          rw [this]
          simp only [hrt, t5]
          simp [Heap.read, ho, movedDict, List.map_map, Function.comp_def]
        · rw [if_neg hba]
          apply read_congr
          · rw [hob b hba, t2 b hb2]
          · intro r hr
            rw [hrt, readTensor_congr (t2 r (hw b hb1 hb2 r hr).2)]
      obtain ⟨i1, i2, i3, i4, i5⟩ := ih h2 hw2 (fun x hx => by
        have := hin x (by simp [hx])
        exact ⟨this.1, by omega⟩)
      refine ⟨by omega, ?_, i3, ?_, ?_⟩
      · intro b hb hbs
        rw [i2 b hb (by omega), hob b (by omega), t2 b hbs]
      · intro r hr
        rw [i4 r (by omega), hrt, readTensor_congr (t2 r hr)]
      · intro b hb1 hb2
        rw [i5 b hb1 (by omega), hread b hb1 hb2]
        simp only [List.map_cons, List.mem_cons]
        by_cases hba : b = a
        · rw [if_pos hba, movedDict_idem, if_pos (Or.inl hba)]
          split <;> rfl
        · simp only [if_neg hba, hba, false_or]
          try rfl

theorem toSub_spec (d n : Nat) (ss : List (String × Val)) : ∀ (h : Heap), WF n h → (∀ x ∈ ss, ∀ a ∈ x.2.refs, n ≤ a ∧ a < h.size) →
    h.size ≤ (h.toSub d ss).1.size ∧ (∀ b, b < h.size → (h.toSub d ss).1.obj b = h.obj b) ∧ WF n (h.toSub d ss).1 ∧
      (∀ x ∈ (h.toSub d ss).2, ∀ a ∈ x.2.refs, n ≤ a ∧ a < (h.toSub d ss).1.size) ∧
      (h.toSub d ss).2.map (fun x => (x.1, (h.toSub d ss).1.readVal x.2)) =
        ss.map (fun x => (x.1, movedTensor d (h.readVal x.2))) := by
  induction ss with
  | nil => intro h hw _; exact ⟨Nat.le_refl _, fun _ _ => rfl, hw, by simp [Heap.toSub], rfl⟩
  | cons x ss ih =>
    intro h hw hin
    obtain ⟨k, v⟩ := x
    cases v with
    | num m =>
      obtain ⟨i1, i2, i3, i4, i5⟩ := ih h hw (fun x hx => hin x (by simp [hx]))
      simp only [Heap.toSub]
      refine ⟨i1, i2, i3, ?_, ?_⟩
      · intro x hx
        rcases List.mem_cons.1 hx with rfl | hx
        · simp [Val.refs]
        · exact i4 x hx
      · rw [List.map_cons, List.map_cons, i5]
        rfl
    | ref a =>
      have ha := hin (k, .ref a) (by simp) a (by simp [Val.refs])
      obtain ⟨d1, d2, d3, d4, d5, -, d7⟩ := toDev_spec d n h hw a ha.1 ha.2
      obtain ⟨i1, i2, i3, i4, i5⟩ := ih (h.toDev d a).1 d3 (fun x hx b hb => by
        have := hin x (by simp [hx]) b hb
        exact ⟨this.1, by omega⟩)
      simp only [Heap.toSub]
      refine ⟨by omega, ?_, i3, ?_, ?_⟩
      · intro b hb
        rw [i2 b (by omega), d2 b hb]
      · intro x hx
        rcases List.mem_cons.1 hx with rfl | hx
        · intro b hb
          have : b = (h.toDev d a).2 := by simpa [Val.refs] using hb
          rw [this]
          exact ⟨d4, by omega⟩
        · exact i4 x hx
      · rw [List.map_cons, List.map_cons, i5]
        congr 1
        · simp only [Heap.readVal]
          rw [← d7]
          congr 1
          exact read_congr (i2 _ d5) fun r hr => readTensor_congr (i2 r (d3 _ d4 d5 r hr).2)
        · apply List.map_congr_left
          intro x hx
          congr 2
          apply readVal_congr
          intro b hb
          have hb' := hin x (by simp [hx]) b hb
          exact read_congr (d2 b hb'.2) fun r hr => readTensor_congr (d2 r (hw b hb'.1 hb'.2 r hr).2)

theorem toTrans_spec (d n : Nat) (h : Heap) (t : TObj) (hw : WF n h) (hin : ∀ a ∈ t.refs, n ≤ a ∧ a < h.size) (hsep : Separate t) :
    h.size ≤ (h.toTrans d t).1.size ∧ (∀ b, b < n → b < h.size → (h.toTrans d t).1.obj b = h.obj b) ∧ WF n (h.toTrans d t).1 ∧
      (∀ a ∈ (h.toTrans d t).2.refs, n ≤ a ∧ a < (h.toTrans d t).1.size) ∧
      (h.toTrans d t).1.readT (h.toTrans d t).2 = moved d (h.readT t) := by
  have hM : ∀ x ∈ t.major, n ≤ x.2 ∧ x.2 < h.size := fun x hx => hin x.2 (by
    simp only [TObj.refs, List.mem_append]; exact Or.inl (Or.inl (List.mem_map_of_mem hx)))
  have hS : ∀ x ∈ t.sub, ∀ a ∈ x.2.refs, n ≤ a ∧ a < h.size := fun x hx a ha => hin a (by
    simp only [TObj.refs, List.mem_append]; exact Or.inl (Or.inr (List.mem_flatMap.2 ⟨x, hx, ha⟩)))
  have hC : ∀ x ∈ t.custom, ∀ a ∈ x.2.refs, n ≤ a ∧ a < h.size := fun x hx a ha => hin a (by
    simp only [TObj.refs, List.mem_append]; exact Or.inr (List.mem_flatMap.2 ⟨x, hx, ha⟩))
  obtain ⟨m1, m2, m3, m4, m5⟩ := toMajor_spec d n t.major h hw hM
  obtain ⟨s1, s2, s3, s4, s5⟩ := toSub_spec d n t.sub (h.toMajor d t.major) m3 (fun x hx a ha => by
    have := hS x hx a ha
    exact ⟨this.1, by omega⟩)
  simp only [Heap.toTrans]
  have hread : ∀ b, n ≤ b → b < h.size → ((h.toMajor d t.major).toSub d t.sub).1.read b = (h.toMajor d t.major).read b := by
    intro b hb1 hb2
    exact read_congr (s2 b (by omega)) fun r hr => readTensor_congr (s2 r (m3 b hb1 (by omega) r hr).2)
  refine ⟨by omega, ?_, s3, ?_, ?_⟩
  · intro b hb hbs
    rw [s2 b (by omega), m2 b hb hbs]
  · intro a ha
    simp only [TObj.refs, List.mem_append] at ha
    rcases ha with (ha | ha) | ha
    · obtain ⟨x, hx, rfl⟩ := List.mem_map.1 ha
      have := hM x hx
      exact ⟨this.1, by omega⟩
    · obtain ⟨x, hx, ha⟩ := List.mem_flatMap.1 ha
      exact s4 x hx a ha
    · obtain ⟨x, hx, ha⟩ := List.mem_flatMap.1 ha
      have := hC x hx a ha
      exact ⟨this.1, by omega⟩
  · unfold Heap.readT moved
    simp only [TVal.mk.injEq]
    refine ⟨?_, ?_, ?_⟩
    · rw [List.map_map]
      apply List.map_congr_left
      intro x hx
      have hx' := hM x hx
      simp only [Function.comp_apply, Prod.mk.injEq, true_and]
      rw [hread x.2 hx'.1 hx'.2, m5 x.2 hx'.1 hx'.2, if_pos (List.mem_map_of_mem hx)]
    · rw [s5, List.map_map]
      apply List.map_congr_left
      intro x hx
      simp only [Function.comp_apply, Prod.mk.injEq, true_and]
      congr 1
      apply readVal_congr
      intro a ha
      have ha' := hS x hx a ha
      rw [m5 a ha'.1 ha'.2, if_neg]
      intro hmem
      exact (hsep a hmem).1 (List.mem_flatMap.2 ⟨x, hx, ha⟩)
    · apply List.map_congr_left
      intro x hx
      simp only [Prod.mk.injEq, true_and]
      apply readVal_congr
      intro a ha
      have ha' := hC x hx a ha
      rw [hread a ha'.1 ha'.2, m5 a ha'.1 ha'.2, if_neg]
      intro hmem
      exact (hsep a hmem).2 (List.mem_flatMap.2 ⟨x, hx, ha⟩)

/-! ### Copying -/

/-- Every reference is in use. -/
def Closed (h : Heap) : Prop := ∀ a, a < h.size → ∀ r ∈ (h.obj a).refs, r < h.size

theorem shift_refs (k : Nat) (o : Obj) : (o.shift k).refs = o.refs.map (· + k) := by
  cases o with
  | dict items => simp [Obj.shift, Obj.refs, List.map_map, Function.comp_def]
  | tensor _ _ => rfl
  | other _ => rfl

theorem val_shift_refs (k : Nat) (v : Val) : (v.shift k).refs = v.refs.map (· + k) := by cases v <;> rfl

theorem tobj_shift_refs (k : Nat) (t : TObj) : (t.shift k).refs = t.refs.map (· + k) := by
  unfold TObj.refs TObj.shift
  simp only [List.map_map, List.flatMap_map, List.map_append, List.map_flatMap, val_shift_refs, Function.comp_def]

theorem deepcopy_obj (h : Heap) (t : TObj) (a : Nat) : (a < h.size → (h.deepcopy t).1.obj a = h.obj a) ∧
    (h.deepcopy t).1.obj (a + h.size) = (h.obj a).shift h.size := by
  constructor
  · intro ha
    simp [Heap.deepcopy, ha]
  · have : ¬ (a + h.size < h.size) := by omega
    simp [Heap.deepcopy, this]

theorem deepcopy_readTensor (h : Heap) (t : TObj) (a : Nat) : (h.deepcopy t).1.readTensor (a + h.size) = h.readTensor a := by
  unfold Heap.readTensor
  rw [(deepcopy_obj h t a).2]
  cases h.obj a <;> rfl

theorem deepcopy_read (h : Heap) (t : TObj) (a : Nat) : (h.deepcopy t).1.read (a + h.size) = h.read a := by
  unfold Heap.read
  rw [(deepcopy_obj h t a).2]
  cases h.obj a with
  | tensor _ _ => rfl
  | other _ => rfl
  | dict items => simp only [Obj.shift, List.map_map, Function.comp_def, deepcopy_readTensor]

theorem deepcopy_readVal (h : Heap) (t : TObj) (v : Val) : (h.deepcopy t).1.readVal (v.shift h.size) = h.readVal v := by
  cases v with
  | num n => rfl
  | ref a => exact deepcopy_read h t a

theorem deepcopy_readT (h : Heap) (t : TObj) : (h.deepcopy t).1.readT (h.deepcopy t).2 = h.readT t := by
  unfold Heap.readT
  show TVal.mk (((t.shift h.size).major).map _) (((t.shift h.size).sub).map _) (((t.shift h.size).custom).map _) = _
  simp only [TObj.shift, List.map_map, Function.comp_def, deepcopy_read, deepcopy_readVal]

theorem deepcopy_wf (h : Heap) (t : TObj) (hc : Closed h) : WF h.size (h.deepcopy t).1 ∧ (h.deepcopy t).1.size = h.size + h.size := by
  refine ⟨?_, rfl⟩
  intro a ha1 ha2 r hr
  have ha2' : a < h.size + h.size := ha2
  obtain ⟨b, rfl⟩ : ∃ b, a = b + h.size := ⟨a - h.size, by omega⟩
  rw [(deepcopy_obj h t b).2, shift_refs] at hr
  obtain ⟨q, hq, rfl⟩ := List.mem_map.1 hr
  have := hc b (by omega) q hq
  show h.size ≤ q + h.size ∧ q + h.size < h.size + h.size
  omega

theorem separate_shift (k : Nat) (t : TObj) (h : Separate t) : Separate (t.shift k) := by
  intro a ha
  have h1 : (t.shift k).major.map (·.2) = (t.major.map (·.2)).map (· + k) := by simp [TObj.shift, List.map_map, Function.comp_def]
  rw [h1] at ha
  obtain ⟨b, hb, rfl⟩ := List.mem_map.1 ha
  have hb' := h b hb
  have h2 : (t.shift k).sub.flatMap (fun x => x.2.refs) = (t.sub.flatMap (fun x => x.2.refs)).map (· + k) := by
    simp only [TObj.shift, List.flatMap_map, List.map_flatMap, val_shift_refs]
  have h3 : (t.shift k).custom.flatMap (fun x => x.2.refs) = (t.custom.flatMap (fun x => x.2.refs)).map (· + k) := by
    simp only [TObj.shift, List.flatMap_map, List.map_flatMap, val_shift_refs]
  rw [h2, h3]
  constructor
  · intro hm
    obtain ⟨c, hc, e⟩ := List.mem_map.1 hm
    exact hb'.1 (by have : c = b := by omega
                    rw [← this]; exact hc)
  · intro hm
    obtain ⟨c, hc, e⟩ := List.mem_map.1 hm
    exact hb'.2 (by have : c = b := by omega
                    rw [← this]; exact hc)

/-- Copy and move of one transition. -/
theorem copyMove_spec (d : Nat) (h : Heap) (t : TObj) (hc : Closed h) (hin : ∀ a ∈ t.refs, a < h.size) (hsep : Separate t) :
    let h' := ((h.deepcopy t).1.toTrans d (h.deepcopy t).2).1
    let t' := ((h.deepcopy t).1.toTrans d (h.deepcopy t).2).2
    h.size ≤ h'.size ∧ (∀ b, b < h.size → h'.obj b = h.obj b) ∧ WF h.size h' ∧ (∀ a ∈ t'.refs, h.size ≤ a ∧ a < h'.size) ∧
      h'.readT t' = moved d (h.readT t) := by
  intro h' t'
  obtain ⟨w1, w2⟩ := deepcopy_wf h t hc
  have hin' : ∀ a ∈ (h.deepcopy t).2.refs, h.size ≤ a ∧ a < (h.deepcopy t).1.size := by
    intro a ha
    have ha' : a ∈ (t.shift h.size).refs := ha
    rw [tobj_shift_refs] at ha'
    obtain ⟨b, hb, rfl⟩ := List.mem_map.1 ha'
    have := hin b hb
    omega
  obtain ⟨t1, t2, t3, t4, t5⟩ := toTrans_spec d h.size (h.deepcopy t).1 (h.deepcopy t).2 w1 hin' (separate_shift _ _ hsep)
  refine ⟨by show h.size ≤ ((h.deepcopy t).1.toTrans d (h.deepcopy t).2).1.size; omega, ?_, t3, t4, ?_⟩
  · intro b hb
    show ((h.deepcopy t).1.toTrans d (h.deepcopy t).2).1.obj b = _
    rw [t2 b hb (by omega), (deepcopy_obj h t b).1 hb]
  · show ((h.deepcopy t).1.toTrans d (h.deepcopy t).2).1.readT ((h.deepcopy t).1.toTrans d (h.deepcopy t).2).2 = _
    rw [t5, deepcopy_readT]

/-! ### The storage -/

theorem view_storeOne {α β : Type} (f : α → β) (s : Storage α) (x : α) :
    (view f s).storeOne (f x) = (view f (s.storeOne x).1, (s.storeOne x).2) := by
  unfold Storage.storeOne view
  simp only [List.length_map]
  split
  · split
    · simp [List.map_set]
    · rfl
  · split
    · simp
    · rfl

theorem storeOne_data {α : Type} (s : Storage α) (x y : α) (h : y ∈ (s.storeOne x).1.data) : y = x ∨ y ∈ s.data := by
  unfold Storage.storeOne at h
  split at h
  · split at h
    · simp only at h
      rcases List.mem_or_eq_of_mem_set h with h | h
      · exact Or.inr h
      · exact Or.inl h
    · exact Or.inr h
  · split at h
    · simp only [List.mem_append, List.mem_singleton] at h
      exact h.symm
    · exact Or.inr h

theorem view_congr {α β : Type} (f g : α → β) (s : Storage α) (h : ∀ x ∈ s.data, f x = g x) : view f s = view g s := by
  unfold view
  rw [List.map_congr_left h]

theorem closed_of_wf {h h' : Heap} (hc : Closed h) (hle : h.size ≤ h'.size) (hs : ∀ b, b < h.size → h'.obj b = h.obj b)
    (hw : WF h.size h') : Closed h' := by
  intro a ha r hr
  by_cases hlt : a < h.size
  · rw [hs a hlt] at hr
    have := hc a hlt r hr
    omega
  · exact (hw a (by omega) ha r hr).2

/-- The loop: old objects stay, new ones are separate from them, and seen through their values the storage is the one of the values. -/
theorem storeLoop_spec (d n : Nat) (ts : List TObj) : ∀ (h : Heap) (s : Storage TObj), Closed h → n ≤ h.size → WF n h →
    (∀ t ∈ ts, (∀ a ∈ t.refs, a < h.size) ∧ Separate t) → (∀ t ∈ s.data, ∀ a ∈ t.refs, a < h.size) →
    let r := storeLoop d h s ts
    h.size ≤ r.1.size ∧ (∀ b, b < h.size → r.1.obj b = h.obj b) ∧ Closed r.1 ∧ WF n r.1 ∧
      (∀ t ∈ r.2.1.data, t ∈ s.data ∨ ∀ a ∈ t.refs, h.size ≤ a ∧ a < r.1.size) ∧
      (view h.readT s).storeLoop (ts.map fun t => moved d (h.readT t)) = (view r.1.readT r.2.1, r.2.2) := by
  induction ts with
  | nil =>
    intro h s hc hn hw _ _
    exact ⟨Nat.le_refl _, fun _ _ => rfl, hc, hw, fun t ht => Or.inl ht, rfl⟩
  | cons t ts ih =>
    intro h s hc hn hw hts hs r
    have ht := hts t (by simp)
    obtain ⟨c1, c2, c3, c4, c5⟩ := copyMove_spec d h t hc ht.1 ht.2
    generalize hh' : ((h.deepcopy t).1.toTrans d (h.deepcopy t).2).1 = h' at c1 c2 c3 c4 c5
    generalize ht' : ((h.deepcopy t).1.toTrans d (h.deepcopy t).2).2 = t' at c4 c5
    have hc' : Closed h' := closed_of_wf hc c1 c2 c3
    have hw' : WF n h' := by
      intro a ha1 ha2 q hq
      by_cases hlt : a < h.size
      · rw [c2 a hlt] at hq
        have := hw a ha1 hlt q hq
        exact ⟨this.1, by omega⟩
      · have := c3 a (by omega) ha2 q hq
        exact ⟨by omega, this.2⟩
    have hold : ∀ (u : TObj), (∀ a ∈ u.refs, a < h.size) → h'.readT u = h.readT u := fun u hu =>
      readT_closed (fun a => a < h.size) (fun a ha q hq => hc a ha q hq) (fun a ha => c2 a ha) hu
    have hv : view h.readT s = view h'.readT s := view_congr _ _ _ fun u hu => (hold u (hs u hu)).symm
    have hr : r = match s.storeOne t' with
        | (s, .error e) => (h', s, .error e)
        | (s, .ok p) =>
          match storeLoop d h' s ts with
          | (h, s, .error e) => (h, s, .error e)
          | (h, s, .ok ps) => (h, s, .ok (p :: ps)) := by
      show storeLoop d h s (t :: ts) = _
      rw [storeLoop]
      simp only [hh', ht']
      rfl
    have hone := view_storeOne h'.readT s t'
    rw [c5] at hone
    have hdata : ∀ u ∈ (s.storeOne t').1.data, u ∈ s.data ∨ ∀ a ∈ u.refs, h.size ≤ a ∧ a < h'.size := by
      intro u hu
      rcases storeOne_data s t' u hu with rfl | hu
      · exact Or.inr c4
      · exact Or.inl hu
    have hdata' : ∀ u ∈ (s.storeOne t').1.data, ∀ a ∈ u.refs, a < h'.size := by
      intro u hu a ha
      rcases hdata u hu with h1 | h1
      · have := hs u h1 a ha; omega
      · exact (h1 a ha).2
    rw [List.map_cons, Storage.storeLoop, hv]
    cases hso : s.storeOne t' with
    | mk s1 r1 =>
      rw [hso] at hone hdata hdata' hr
      simp only at hone hdata hdata'
      cases r1 with
      | error e =>
        simp only at hr
        rw [hr, hone]
        exact ⟨c1, c2, hc', hw', hdata, rfl⟩
      | ok p =>
        obtain ⟨i1, i2, i3, i4, i5, i6⟩ := ih h' s1 hc' (by omega) hw' (fun u hu => by
          have := hts u (by simp [hu])
          exact ⟨fun a ha => by have := this.1 a ha; omega, this.2⟩) hdata'
        have hmap : (ts.map fun t => moved d (h.readT t)) = ts.map fun t => moved d (h'.readT t) :=
          List.map_congr_left fun u hu => by rw [hold u (hts u (by simp [hu])).1]
        rw [hone, hmap]
        simp only at hr ⊢
        rw [i6]
        have hcommon : h.size ≤ (storeLoop d h' s1 ts).1.size ∧
            (∀ b, b < h.size → (storeLoop d h' s1 ts).1.obj b = h.obj b) ∧
            (∀ u ∈ (storeLoop d h' s1 ts).2.1.data, u ∈ s.data ∨ ∀ a ∈ u.refs, h.size ≤ a ∧ a < (storeLoop d h' s1 ts).1.size) := by
          refine ⟨by omega, ?_, ?_⟩
          · intro b hb
            rw [i2 b (by omega), c2 b hb]
          · intro u hu
            rcases i5 u hu with h1 | h1
            · rcases hdata u h1 with h2 | h2
              · exact Or.inl h2
              · exact Or.inr fun a ha => ⟨(h2 a ha).1, by have := (h2 a ha).2; omega⟩
            · exact Or.inr fun a ha => ⟨by have := (h1 a ha).1; omega, (h1 a ha).2⟩
        cases hsl : storeLoop d h' s1 ts with
        | mk h2 q =>
          obtain ⟨s2, r2⟩ := q
          rw [hsl] at hr hcommon i3 i4
          cases r2 with
          | error e =>
            simp only at hr
            rw [hr]
            exact ⟨hcommon.1, hcommon.2.1, i3, i4, hcommon.2.2, rfl⟩
          | ok ps =>
            simp only at hr
            rw [hr]
            exact ⟨hcommon.1, hcommon.2.1, i3, i4, hcommon.2.2, rfl⟩

theorem storeEpisode_eq (d : Nat) (h : Heap) (s : Storage TObj) (ts : List TObj) :
    (storeEpisode d h s ts).1 = (storeLoop d h s ts).1 ∧ (storeEpisode d h s ts).2.1 = (storeLoop d h s ts).2.1 := by
  unfold storeEpisode
  cases hsl : storeLoop d h s ts with
  | mk h2 q =>
    obtain ⟨s2, r2⟩ := q
    cases r2 with
    | error e => exact ⟨rfl, rfl⟩
    | ok ps =>
      simp only
      split <;> exact ⟨rfl, rfl⟩

/-- The whole call. -/
theorem storeEpisode_spec (d : Nat) (ts : List TObj) (h : Heap) (s : Storage TObj) (hc : Closed h)
    (hts : ∀ t ∈ ts, (∀ a ∈ t.refs, a < h.size) ∧ Separate t) (hs : ∀ t ∈ s.data, ∀ a ∈ t.refs, a < h.size) :
    let r := storeEpisode d h s ts
    h.size ≤ r.1.size ∧ (∀ b, b < h.size → r.1.obj b = h.obj b) ∧ Closed r.1 ∧ WF h.size r.1 ∧
      (∀ t ∈ r.2.1.data, t ∈ s.data ∨ ∀ a ∈ t.refs, h.size ≤ a ∧ a < r.1.size) ∧
      (view h.readT s).storeEpisode (ts.map fun t => moved d (h.readT t)) = (view r.1.readT r.2.1, r.2.2) := by
  intro r
  obtain ⟨l1, l2, l3, l4, l5, l6⟩ := storeLoop_spec d h.size ts h s hc (Nat.le_refl _)
    (fun a h1 h2 => absurd h1 (by omega)) hts hs
  obtain ⟨e1, e2⟩ := storeEpisode_eq d h s ts
  show h.size ≤ (storeEpisode d h s ts).1.size ∧ (∀ b, b < h.size → (storeEpisode d h s ts).1.obj b = h.obj b) ∧
    Closed (storeEpisode d h s ts).1 ∧ WF h.size (storeEpisode d h s ts).1 ∧
    (∀ t ∈ (storeEpisode d h s ts).2.1.data, t ∈ s.data ∨ ∀ a ∈ t.refs, h.size ≤ a ∧ a < (storeEpisode d h s ts).1.size) ∧
    (view h.readT s).storeEpisode (ts.map fun t => moved d (h.readT t)) =
      (view (storeEpisode d h s ts).1.readT (storeEpisode d h s ts).2.1, (storeEpisode d h s ts).2.2)
  rw [e1, e2]
  refine ⟨l1, l2, l3, l4, l5, ?_⟩
  unfold Storage.storeEpisode
  rw [l6]
  unfold storeEpisode
  cases hsl : storeLoop d h s ts with
  | mk h2 q =>
    obtain ⟨s2, r2⟩ := q
    cases r2 with
    | error e => rfl
    | ok ps =>
      simp only
      split <;> rfl

/-- Invariant of callers and storages. -/
structure Inv (w : World) (A : Nat → Storage TVal) : Prop where
  caller : ∀ a, w.mine a = true → a < w.heap.size ∧ ∀ r ∈ (w.heap.obj a).refs, w.mine r = true
  other : ∀ a, a < w.heap.size → w.mine a = false → ∀ r ∈ (w.heap.obj a).refs, r < w.heap.size ∧ w.mine r = false
  data : ∀ k, ∀ t ∈ (w.stores k).data, ∀ r ∈ t.refs, r < w.heap.size ∧ w.mine r = false
  same : ∀ k, view w.heap.readT (w.stores k) = A k

theorem Inv.closed {w : World} {A : Nat → Storage TVal} (h : Inv w A) : Closed w.heap := by
  intro a ha r hr
  cases hm : w.mine a with
  | true => exact (h.caller r ((h.caller a hm).2 r hr)).1
  | false => exact (h.other a ha hm r hr).1

/-- Changing only what the caller holds, or what is new, does not change what the storages hold. -/
theorem Inv.stored_same {w : World} {A : Nat → Storage TVal} (h : Inv w A) (h' : Heap)
    (hs : ∀ a, a < w.heap.size → w.mine a = false → h'.obj a = w.heap.obj a) (k : Nat) :
    view h'.readT (w.stores k) = A k := by
  rw [← h.same k]
  apply view_congr
  intro t ht
  exact readT_closed (fun a => a < w.heap.size ∧ w.mine a = false) (fun a ha r hr => h.other a ha.1 ha.2 r hr)
    (fun a ha => hs a ha.1 ha.2) (h.data k t ht)

theorem Spec.Reach.inv {dev cap : Nat → Nat} {w : World} {A : Nat → Storage TVal} (h : Spec.Reach dev cap w A) : Inv w A := by
  induction h with
  | init =>
    refine ⟨?_, ?_, ?_, ?_⟩
    · intro a ha; simp at ha
    · intro a ha; simp at ha
    · intro k t ht; simp [Storage.new] at ht
    · intro k; rfl
  | @alloc w A o _ hr ih =>
    have hfresh : w.mine w.heap.size = false := by
      cases hm : w.mine w.heap.size with
      | false => rfl
      | true => have := (ih.caller _ hm).1; omega
    refine ⟨?_, ?_, ?_, ?_⟩
    · intro a ha
      simp only [Heap.alloc, Bool.or_eq_true, beq_iff_eq] at ha ⊢
      by_cases hs : a = w.heap.size
      · rw [if_pos hs]
        exact ⟨by omega, fun r hr' => Or.inr (hr r hr')⟩
      · rw [if_neg hs]
        have := ih.caller a (by rcases ha with ha | ha; exact absurd ha hs; exact ha)
        exact ⟨by omega, fun r hr' => Or.inr (this.2 r hr')⟩
    · intro a ha hm r hr'
      simp only [Heap.alloc, Bool.or_eq_false_iff, beq_eq_false_iff_ne] at ha hm hr' ⊢
      rw [if_neg hm.1] at hr'
      have := ih.other a (by omega) hm.2 r hr'
      exact ⟨by omega, by omega, this.2⟩
    · intro k t ht r hr'
      have := ih.data k t ht r hr'
      simp only [Heap.alloc, Bool.or_eq_false_iff, beq_eq_false_iff_ne]
      exact ⟨by omega, by omega, this.2⟩
    · intro k
      apply ih.stored_same
      intro a ha _
      simp only [Heap.alloc]
      rw [if_neg (by omega)]
  | @write w A a o _ ha hr ih =>
    refine ⟨?_, ?_, ?_, ?_⟩
    · intro b hb
      simp only [Heap.set] at hb ⊢
      by_cases hs : b = a
      · rw [if_pos hs]
        exact ⟨(ih.caller b hb).1, hr⟩
      · rw [if_neg hs]
        exact ih.caller b hb
    · intro b hb hm r hr'
      simp only [Heap.set] at hb hr' hm ⊢
      rw [if_neg (by rintro rfl; rw [ha] at hm; exact absurd hm (by simp))] at hr'
      exact ih.other b hb hm r hr'
    · exact ih.data
    · intro k
      apply ih.stored_same
      intro b _ hm
      simp only [Heap.set]
      rw [if_neg (by rintro rfl; rw [ha] at hm; exact absurd hm (by simp))]
  | @store w A k ts _ hts ih =>
    have hclosed := ih.closed
    obtain ⟨s1, s2, s3, s4, s5, s6⟩ := storeEpisode_spec (dev k) ts w.heap (w.stores k) hclosed
      (fun t ht => ⟨fun a ha => (ih.caller a ((hts t ht).1 a ha)).1, (hts t ht).2⟩)
      (fun t ht a ha => (ih.data k t ht a ha).1)
    generalize storeEpisode (dev k) w.heap (w.stores k) ts = R at s1 s2 s3 s4 s5 s6 ⊢
    have hfresh : ∀ a, w.heap.size ≤ a → w.mine a = false := by
      intro a ha
      cases hm : w.mine a with
      | false => rfl
      | true => have := (ih.caller a hm).1; omega
    refine ⟨?_, ?_, ?_, ?_⟩
    · intro a ha
      have := ih.caller a ha
      simp only
      rw [s2 a this.1]
      exact ⟨by omega, this.2⟩
    · intro a ha hm r hr
      simp only at ha hr hm ⊢
      by_cases hlt : a < w.heap.size
      · rw [s2 a hlt] at hr
        have := ih.other a hlt hm r hr
        exact ⟨by omega, this.2⟩
      · have := s4 a (by omega) ha r hr
        exact ⟨this.2, hfresh r this.1⟩
    · intro j t ht r hr
      simp only at ht ⊢
      by_cases hj : j = k
      · rw [if_pos hj] at ht
        rcases s5 t ht with h1 | h1
        · have := ih.data k t h1 r hr
          exact ⟨by omega, this.2⟩
        · have := h1 r hr
          exact ⟨this.2, hfresh r this.1⟩
      · rw [if_neg hj] at ht
        have := ih.data j t ht r hr
        exact ⟨by omega, this.2⟩
    · intro j
      simp only
      by_cases hj : j = k
      · rw [if_pos hj, if_pos hj, ← ih.same k, s6]
      · rw [if_neg hj, if_neg hj]
        exact ih.stored_same _ (fun a ha _ => s2 a ha) j
  | @clear w A k _ ih =>
    refine ⟨ih.caller, ih.other, ?_, ?_⟩
    · intro j t ht
      simp only at ht
      by_cases hj : j = k
      · rw [if_pos hj] at ht
        simp [Storage.clear] at ht
      · rw [if_neg hj] at ht
        exact ih.data j t ht
    · intro j
      simp only
      by_cases hj : j = k
      · rw [if_pos hj, if_pos hj, ← ih.same k]
        rfl
      · rw [if_neg hj, if_neg hj]
        exact ih.same j

end Machin.Device
