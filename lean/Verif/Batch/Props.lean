import Verif.Batch.Lemmas
import Verif.Algo.Spec
import Verif.Trans.Props

/-! # Properties of sampled batches: C137, C138 -/

namespace Machin.Batch

/-- Row `k` of a tensor. -/
def row {α : Type} (t : Tensor α) (k : Nat) : List α := (t.data.drop (k * t.shape.tail.prod)).take t.shape.tail.prod

/-- A proper tensor: as many entries as the shape says. -/
def Proper {α : Type} (t : Tensor α) : Prop := t.data.length = t.shape.prod

/-! ## C137: row k of every concatenated attribute comes from transition k -/

/-- C137 for tensors: the result has the rows of all tensors, those of a tensor together and in their order, the tensors in the order of the
batch. -/
theorem C137_blocks {α : Type} (ts : List (Tensor α)) (s : List Nat) (b : Tensor α → Nat) (hne : ts ≠ [])
    (hs : ∀ t ∈ ts, t.shape = b t :: s) (hp : ∀ t ∈ ts, Proper t) :
    ∃ r, makeTensor (ts.map Item.tensor) true = .ok (.tensor r) ∧ r.shape = (ts.map b).sum :: s ∧
      r.data = ts.flatMap (·.data) ∧
      ∀ (k : Nat) (t : Tensor α), ts[k]? = some t → ∀ j < b t, row r (((ts.take k).map b).sum + j) = row t j := by
  obtain ⟨t, rest, rfl⟩ := List.exists_cons_of_ne_nil hne
  have hany : (t :: rest).any (fun t => t.shape.isEmpty) = false := by
    rw [List.any_eq_false]
    intro x hx
    rw [hs x hx]; simp
  have hall : rest.all (fun x => x.shape.tail == t.shape.tail) = true := by
    rw [List.all_eq_true]
    intro x hx
    rw [hs x (by simp [hx]), hs t (by simp)]; simp
  have hhead : (t :: rest).map (fun t => t.shape.headD 0) = (t :: rest).map b := by
    apply List.map_congr_left
    intro x hx
    rw [hs x hx]; rfl
  have htail : t.shape.tail = s := by rw [hs t (by simp)]; rfl
  refine ⟨⟨((t :: rest).map b).sum :: s, (t :: rest).flatMap (·.data)⟩, ?_, rfl, rfl, ?_⟩
  · rw [List.map_cons]
    simp only [makeTensor]
    rw [tensors_map]
    dsimp only
    rw [cat, hany, hall, hhead, htail]
    rfl
  · intro k x hk j hj
    have hx : x ∈ t :: rest := List.mem_of_getElem? hk
    unfold row
    rw [hs x hx]
    exact slice_flatMap (fun t : Tensor α => t.data) s.prod (t :: rest) b (fun y hy => by
      have := hp y hy
      rw [Proper, hs y hy, List.prod_cons] at this
      exact this) k x hk j hj

example : makeTensor [.tensor ⟨[2, 2], [1, 2, 3, 4]⟩, .tensor ⟨[1, 2], [5, 6]⟩] true = .ok (.tensor ⟨[3, 2], [1, 2, 3, 4, 5, 6]⟩) := by decide

/-- C137: a batch with an item that is neither a number, nor lists of numbers, nor a tensor is refused, with a `ValueError` if it is the first one;
so is a batch of empty lists; without concatenation every batch is returned as it is. -/
theorem C137_refused {α : Type} (batch : List (Item α)) :
    (Item.other ∈ batch → ∃ e, makeTensor batch true = .error e) ∧ (batch.head? = some .other → makeTensor batch true = .error .value) ∧
    makeTensor batch false = .ok (.list batch) ∧
    ((∃ s, batch ≠ [] ∧ ∀ x ∈ batch, x = .nested s []) → makeTensor batch true = .error .value) := by
  have ht : ∀ l : List (Item α), Item.other ∈ l → ∃ e, tensors l = .error e := by
    intro l
    induction l with
    | nil => intro h; simp at h
    | cons x xs ih =>
      intro h
      cases x with
      | tensor t =>
        obtain ⟨e, he⟩ := ih (by simpa using h)
        exact ⟨e, by simp only [tensors, he]⟩
      | nested s d => exact ⟨.attribute, by simp only [tensors]⟩
      | other => exact ⟨.attribute, by simp only [tensors]⟩
  have ha : ∀ (s : List Nat) (l : List (Item α)), Item.other ∈ l → allEntries s l = none := by
    intro s l
    induction l with
    | nil => intro h; simp at h
    | cons x xs ih =>
      intro h
      cases x with
      | other => simp [allEntries, entriesFor]
      | tensor t =>
        simp only [allEntries, ih (by simpa using h)]
        split <;> simp_all
      | nested s' d =>
        simp only [allEntries, ih (by simpa using h)]
        split <;> simp_all
  have he : ∀ (s : List Nat) (l : List (Item α)), (∀ x ∈ l, x = .nested s []) → allEntries s l = some [] := by
    intro s l
    induction l with
    | nil => intro _; rfl
    | cons x xs ih =>
      intro h
      rw [h x (by simp)]
      simp [allEntries, entriesFor, ih fun y hy => h y (by simp [hy])]
  refine ⟨?_, ?_, by simp [makeTensor], ?_⟩
  rotate_left 2
  · rintro ⟨s, hne, h⟩
    obtain ⟨x, xs, rfl⟩ := List.exists_cons_of_ne_nil hne
    have hx := h x (by simp)
    have := he s (x :: xs) h
    rw [hx] at this ⊢
    simp [makeTensor, this]
  · intro h
    cases batch with
    | nil => simp at h
    | cons x xs =>
      cases x with
      | tensor t =>
        obtain ⟨e, he⟩ := ht xs (by simpa using h)
        exact ⟨e, by simp only [makeTensor, he]⟩
      | other => exact ⟨.value, rfl⟩
      | nested s d => exact ⟨.value, by simp only [makeTensor, ha s _ h]⟩
  · intro h
    cases batch with
    | nil => simp at h
    | cons x xs =>
      simp only [List.head?_cons, Option.some.injEq] at h
      subst h
      rfl

example : makeTensor [.scalar 1, .other] true = .error .value ∧ makeTensor [.tensor ⟨[1], [1]⟩, .other] true = .error .attribute := by decide

/-- C137, full statement for a sub attribute (or one key of a major attribute) of default transitions: all values are numbers or tensors with one
row and one entry, as the transition class accepts them; then sampling gives a tensor of one row per transition, row `k` being the value of
transition `k`. -/
def C137_full : Prop :=
  ∀ (batch : List (Item ℚ)) (vals : List ℚ), batch ≠ [] →
    List.Forall₂ (fun x v => x = Item.scalar v ∨ x = .tensor ⟨[1], [v]⟩) batch vals →
    ∃ r, makeTensor batch true = .ok (.tensor r) ∧ r.shape.head? = some batch.length ∧ ∀ (k : Nat) (v : ℚ), vals[k]? = some v → row r k = [v]

/-- A number behind a tensor raises, a tensor behind a number does not: whether a batch can be sampled depends on the order in which its
transitions were drawn. -/
theorem C137_violated_mixed (a b : ℚ) :
    makeTensor [.tensor ⟨[1], [a]⟩, Item.scalar b] true = .error .attribute ∧
    makeTensor [Item.scalar b, .tensor ⟨[1], [a]⟩] true = .ok (.tensor ⟨[2, 1], [b, a]⟩) := by
  constructor
  · rfl
  · simp [makeTensor, allEntries, entriesFor]

/-- C137 is violated. -/
theorem C137_violated : ¬ C137_full := by
  intro h
  obtain ⟨r, hr, _⟩ := h [.tensor ⟨[1], [0]⟩, Item.scalar 0] [0, 0] (by simp) (by simp)
  rw [(C137_violated_mixed 0 0).1] at hr
  cases hr

/-- C137, what holds: tensors of one row each (major attributes, and sub attributes stored as tensors). -/
theorem C137_tensors_partial {α : Type} (ts : List (Tensor α)) (s : List Nat) (hne : ts ≠ []) (hs : ∀ t ∈ ts, t.shape = 1 :: s)
    (hp : ∀ t ∈ ts, Proper t) :
    ∃ r, makeTensor (ts.map Item.tensor) true = .ok (.tensor r) ∧ r.shape = ts.length :: s ∧
      ∀ (k : Nat) (t : Tensor α), ts[k]? = some t → row r k = t.data := by
  obtain ⟨r, h1, h2, _, h3⟩ := C137_blocks ts s (fun _ => 1) hne hs hp
  refine ⟨r, h1, ?_, ?_⟩
  · rw [h2, sum_map_const_one _ _ (fun _ _ => rfl)]
  · intro k t hk
    have hlt : k < ts.length := (List.getElem?_eq_some_iff.1 hk).1
    have := h3 k t hk 0 (by omega)
    rw [sum_map_const_one _ _ (fun _ _ => rfl), List.length_take, Nat.min_eq_left (by omega), Nat.add_zero] at this
    rw [this]
    have hx : t ∈ ts := List.mem_of_getElem? hk
    have hl := hp t hx
    unfold row
    rw [Proper, hs t hx, List.prod_cons, Nat.one_mul] at hl
    rw [hs t hx, Nat.zero_mul, List.drop_zero, List.tail_cons, ← hl, List.take_length]

/-- C137, what holds: numbers, behind a first number also tensors with one entry. -/
theorem C137_numbers_partial {α : Type} (a : α) (batch : List (Item α)) (vals : List α)
    (h : List.Forall₂ (fun x v => x = Item.scalar v ∨ ∃ t : Tensor α, x = .tensor t ∧ t.data = [v]) batch vals) :
    makeTensor (Item.scalar a :: batch) true = .ok (.tensor ⟨[batch.length + 1, 1], a :: vals⟩) ∧
    ∀ (k : Nat) (v : α), (a :: vals)[k]? = some v → row ⟨[batch.length + 1, 1], a :: vals⟩ k = [v] := by
  have hent : allEntries [] batch = some vals := by
    apply allEntries_scalars
    refine h.imp ?_
    rintro x v (rfl | ⟨t, rfl, ht⟩)
    · rfl
    · simp only [entriesFor, ht, List.length_singleton, and_self, or_true, if_true]
  have hlen : vals.length = batch.length := h.length_eq.symm
  constructor
  · simp only [makeTensor, allEntries, entriesFor, if_true, hent]
    rw [if_neg (by simp)]
    simp [hlen]
  · intro k v hk
    have hlt := (List.getElem?_eq_some_iff.1 hk).1
    unfold row
    simp only [List.tail_cons, List.prod_cons, List.prod_nil, Nat.mul_one]
    rw [List.drop_eq_getElem_cons hlt, List.take_succ_cons, List.take_zero, (List.getElem?_eq_some_iff.1 hk).2]

example : makeTensor [Item.scalar (1 : Nat), .tensor ⟨[1], [2]⟩, Item.scalar 3] true = .ok (.tensor ⟨[3, 1], [1, 2, 3]⟩) := by decide

/-- Without concatenation the values are returned as they are. -/
theorem C137_plain_partial {α : Type} (batch : List (Item α)) : makeTensor batch false = .ok (.list batch) := by
  cases batch <;> rfl

/-- The value of an attribute as an item. -/
def attrItem {α : Type} : Trans.Attr (Item α) → Item α
  | .val v => v
  | .dict _ => .other

open Machin.Trans Machin.Trans.Spec in
/-- C137 for a whole sample (with C23): if every item of the batch holds under the major attribute `a` the tensor `ten i k` of one row at key
`k`, of a shape that depends on the key only, and for the sub attribute `s` a number, then in every successful sample the entry of `a` has for
every key a tensor with one row per transition, row `i` being the row of transition `i`, and the entry of `s` has the number of transition `i` in
row `i`. -/
theorem C137_aligned_partial {α : Type} (batch : List (Transition (Item α))) (first : Transition (Item α)) (rest : List (Transition (Item α)))
    (hb : batch = first :: rest) (additional : List String) (hstar : "*" ∉ first.keys) (order : List String)
    (horder : ∀ k, k ∈ order ↔ k ∈ first.customKeys) (attrs : Option (List String)) (res : List (Entry (Out α)))
    (h : postProcess ⟨batch, true, additional, fun _ _ vals c => makeTensor (vals.map attrItem) c⟩ order attrs = .ok (some res)) :
    List.Forall₂ (fun (p : List String × String) (e : Entry (Out α)) =>
      (∀ (shape : String → List Nat) (ten : Nat → String → Tensor α), p.2 ∈ first.majorKeys →
        (∀ (i : Nat) (t : Transition (Item α)), batch[i]? = some t → ∃ d, t.attrs.get? p.2 = some (.dict d) ∧
          ∀ k ∈ d.keys, d.get? k = some (.tensor (ten i k)) ∧ (ten i k).shape = 1 :: shape k ∧ Proper (ten i k)) →
        ∃ d, e = .dict d ∧ ∀ k r, d.get? k = some r → ∃ x, r = .tensor x ∧ x.shape = batch.length :: shape k ∧
          ∀ i < batch.length, row x i = (ten i k).data) ∧
      (∀ num : Nat → α, p.2 ∉ first.majorKeys → p.2 ∈ first.subKeys →
        (∀ (i : Nat) (t : Transition (Item α)), batch[i]? = some t → t.attrs.get? p.2 = some (.val (Item.scalar (num i)))) →
        ∃ x, e = .val (.tensor x) ∧ x.shape = [batch.length, 1] ∧ ∀ i < batch.length, row x i = [num i]))
      (requests (Known first) [] (attrs.getD first.keys)) res := by
  obtain ⟨es, he, hf⟩ := C23_entries _ first rest hb hstar order horder attrs _ h
  cases he
  refine hf.imp ?_
  intro p e hok
  refine ⟨?_, ?_⟩
  · intro shape ten ha hten
    unfold EntryOk at hok
    rw [if_pos ha] at hok
    obtain ⟨d, d0, rfl, hd0, hkeys, hd⟩ := hok
    refine ⟨d, rfl, ?_⟩
    intro k r hr
    obtain ⟨vals, hv, hmk⟩ := hd k r hr
    dsimp only at hv hmk
    have hk0 : k ∈ d0.keys := (hkeys k).1 (by
      rw [← PyDict.get?_isSome_iff, hr]; rfl)
    have hvals : vals.map attrItem = ((List.range batch.length).map fun i => ten i k).map Item.tensor := by
      apply List.ext_getElem?
      intro i
      have hi := congrArg (fun l => l[i]?) hv
      simp only [subColumn, List.getElem?_map] at hi
      rw [List.getElem?_map, List.getElem?_map, List.getElem?_map]
      rcases hbi : batch[i]? with _ | t
      · rw [hbi] at hi
        have : vals[i]? = none := by
          cases hvi : vals[i]? <;> simp_all
        rw [this, List.getElem?_eq_none (by simpa using hbi)]
        rfl
      · have hlt := (List.getElem?_eq_some_iff.1 hbi).1
        obtain ⟨d', h1, h2⟩ := hten i t hbi
        rw [hbi] at hi
        simp only [Option.map_some, h1] at hi
        rw [List.getElem?_range hlt]
        have hmem : k ∈ d'.keys := by
          rcases hg : d'.get? k with _ | y
          · rw [hg] at hi
            cases hvi : vals[i]? <;> simp_all
          · rw [← PyDict.get?_isSome_iff, hg]; rfl
        rw [(h2 k hmem).1] at hi
        cases hvi : vals[i]? with
        | none => rw [hvi] at hi; simp at hi
        | some v =>
          rw [hvi] at hi
          simp only [Option.map_some, Option.some.injEq] at hi
          subst hi
          rfl
    have hprop : ∀ x ∈ (List.range batch.length).map fun i => ten i k, x.shape = 1 :: shape k ∧ Proper x := by
      intro x hx
      obtain ⟨i, hi, rfl⟩ := List.mem_map.1 hx
      have hlt := List.mem_range.1 hi
      obtain ⟨d', h1, h2⟩ := hten i batch[i] (List.getElem?_eq_getElem hlt)
      have hmem : k ∈ d'.keys := by
        have hi := congrArg (fun l => l[i]?) hv
        simp only [subColumn, List.getElem?_map, List.getElem?_eq_getElem hlt, Option.map_some, h1] at hi
        rcases hg : d'.get? k with _ | y
        · rw [hg] at hi
          cases hvi : vals[i]? <;> simp_all
        · rw [← PyDict.get?_isSome_iff, hg]; rfl
      exact (h2 k hmem).2
    obtain ⟨x, hx1, hx2, hx3⟩ := C137_tensors_partial ((List.range batch.length).map fun i => ten i k) (shape k)
      (by simp [hb]) (fun t ht => (hprop t ht).1) (fun t ht => (hprop t ht).2)
    rw [hvals, hx1] at hmk
    cases hmk
    refine ⟨x, rfl, by simpa using hx2, ?_⟩
    intro i hi
    exact hx3 i (ten i k) (by rw [List.getElem?_map, List.getElem?_range hi]; rfl)
  · intro num hna hs hnum
    unfold EntryOk at hok
    rw [if_neg hna, if_pos hs] at hok
    obtain ⟨r, rfl, vals, hv, hmk⟩ := hok
    dsimp only at hv hmk
    have hvals : vals.map attrItem = ((List.range batch.length).map num).map Item.scalar := by
      apply List.ext_getElem?
      intro i
      have hi := congrArg (fun l => l[i]?) hv
      simp only [column, List.getElem?_map] at hi
      rw [List.getElem?_map, List.getElem?_map, List.getElem?_map]
      rcases hbi : batch[i]? with _ | t
      · rw [hbi] at hi
        have : vals[i]? = none := by
          cases hvi : vals[i]? <;> simp_all
        rw [this, List.getElem?_eq_none (by simpa using hbi)]
        rfl
      · have hlt := (List.getElem?_eq_some_iff.1 hbi).1
        rw [hbi] at hi
        simp only [Option.map_some, hnum i t hbi] at hi
        rw [List.getElem?_range hlt]
        cases hvi : vals[i]? with
        | none => rw [hvi] at hi; simp at hi
        | some v =>
          rw [hvi] at hi
          simp only [Option.map_some, Option.some.injEq] at hi
          subst hi
          rfl
    obtain ⟨m, hm⟩ : ∃ m, batch.length = m + 1 := ⟨rest.length, by simp [hb]⟩
    rw [hvals, hm, List.range_succ_eq_map, List.map_cons, List.map_cons] at hmk
    obtain ⟨h1, h2⟩ := C137_numbers_partial (num 0) (((List.range m).map Nat.succ).map num |>.map Item.scalar) (((List.range m).map Nat.succ).map num) (by
      rw [List.forall₂_map_left_iff]
      exact List.forall₂_same.2 fun a _ => .inl rfl)
    rw [h1] at hmk
    cases hmk
    refine ⟨_, rfl, by simp [hm], ?_⟩
    intro i hi
    apply h2
    cases i with
    | zero => rfl
    | succ i =>
      have : i < m := by omega
      simp [this]

open Machin.Trans in
example : postProcess ⟨[⟨["state"], ["reward"], [], [("state", .dict [("x", Item.tensor ⟨[1, 2], [1, 2]⟩)]), ("reward", .val (Item.scalar 7))]⟩,
      ⟨["state"], ["reward"], [], [("state", .dict [("x", Item.tensor ⟨[1, 2], [3, 4]⟩)]), ("reward", .val (Item.scalar 8))]⟩],
      true, [], fun _ _ vals c => makeTensor (vals.map attrItem) c⟩ [] (some ["reward", "state"]) =
    .ok (some [.val (.tensor ⟨[2, 1], [(7 : Nat), 8]⟩), .dict [("x", .tensor ⟨[2, 2], [1, 2, 3, 4]⟩)]]) := by decide

end Machin.Batch
