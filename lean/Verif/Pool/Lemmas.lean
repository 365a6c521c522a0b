import Verif.Pool.Spec
import Mathlib.Data.List.Basic
import Mathlib.Data.List.Nodup
import Mathlib.Data.List.Induction
import Mathlib.Data.List.Perm.Basic
import Mathlib.Data.List.Perm.Subperm
import Mathlib.Data.List.NodupEquivFin
import Mathlib.Data.List.Range
import Mathlib.Tactic.Ring
import Mathlib.Tactic.ByContra

/-! # Lemmas about the pools: splitting and map results -/

namespace Machin.Pool

open Spec

variable {α β ε : Type}

/-! ### Splitting -/

theorem numChunks_zero (c : Nat) (hc : 1 ≤ c) : numChunks 0 c = 0 := by
  unfold numChunks
  exact Nat.div_eq_of_lt (by omega)

theorem numChunks_succ (n c : Nat) (hc : 1 ≤ c) (hn : 1 ≤ n) : numChunks n c = numChunks (n - c) c + 1 := by
  unfold numChunks
  rcases Nat.lt_or_ge n c with h | h
  · have e : n - c = 0 := by omega
    rw [e, Nat.div_eq_of_lt (a := 0 + c - 1) (by omega)]
    rw [Nat.div_eq_iff (by omega)]
    omega
  · have e : n + c - 1 = (n - c + c - 1) + c := by omega
    rw [e, Nat.add_div_right _ (by omega)]

theorem numChunks_eq (n c : Nat) (hc : 1 ≤ c) : n / c + (if n % c ≠ 0 then 1 else 0) = numChunks n c := by
  unfold numChunks
  have h := Nat.div_add_mod n c
  have hm := Nat.mod_lt n (show 0 < c by omega)
  generalize n / c = q at *
  generalize n % c = r at *
  symm
  by_cases hr : r = 0
  · subst hr
    simp only [ne_eq, not_true_eq_false, ↓reduceIte, Nat.add_zero]
    rw [← h, Nat.add_zero, Nat.add_sub_assoc (by omega), Nat.mul_add_div (by omega), Nat.div_eq_of_lt (by omega)]
    rfl
  · rw [if_pos hr, ← h]
    have e : c * q + r + c - 1 = c * (q + 1) + (r - 1) := by rw [Nat.mul_add]; omega
    rw [e, Nat.mul_add_div (by omega), Nat.div_eq_of_lt (by omega)]

theorem lt_numChunks (n c i : Nat) (hc : 1 ≤ c) : i < numChunks n c ↔ i * c < n := by
  unfold numChunks
  rw [Nat.lt_div_iff_mul_lt (by omega)]
  constructor <;> intro h
  · have : c * i = i * c := Nat.mul_comm ..
    omega
  · have : c * i = i * c := Nat.mul_comm ..
    omega

theorem div_lt_numChunks (n c j : Nat) (hc : 1 ≤ c) (h : j < n) : j / c < numChunks n c := by
  rw [lt_numChunks _ _ _ hc]
  exact Nat.lt_of_le_of_lt (Nat.div_mul_le_self j c) h

theorem splitLoop_eq (c : Nat) (hc : 1 ≤ c) (fuel : Nat) (xs : List α) (hf : xs.length < fuel) :
    splitLoop c fuel xs = (List.range (numChunks xs.length c)).map (fun i => (xs.drop (i * c)).take c) := by
  induction fuel generalizing xs with
  | zero => omega
  | succ fuel ih =>
    unfold splitLoop
    by_cases hx : xs = []
    · subst hx
      simp [numChunks_zero c hc]
    · have hl : 1 ≤ xs.length := List.length_pos_iff.mpr hx
      have hne : xs.take c ≠ [] := by
        intro h
        rw [List.take_eq_nil_iff] at h
        rcases h with h | h
        · omega
        · exact hx h
      rw [if_neg hne, ih _ (by rw [List.length_drop]; omega), List.length_drop, numChunks_succ xs.length c hc hl,
        List.range_succ_eq_map, List.map_cons, List.map_map]
      refine congrArg₂ _ (by simp) ?_
      apply List.map_congr_left
      intro i _
      simp only [List.drop_drop, Function.comp, Nat.succ_eq_add_one]
      congr 2
      ring

theorem splitTasks_eq (c : Nat) (hc : 1 ≤ c) (xs : List α) :
    splitTasks c xs = (List.range (numChunks xs.length c)).map (fun i => (xs.drop (i * c)).take c) :=
  splitLoop_eq c hc _ xs (by omega)

theorem splitTasks_length (c : Nat) (hc : 1 ≤ c) (xs : List α) : (splitTasks c xs).length = numChunks xs.length c := by
  rw [splitTasks_eq c hc]
  simp

theorem splitTasks_zero (xs : List α) : splitTasks 0 xs = [] := by
  simp [splitTasks, splitLoop]

/-! ### Map results -/

/-- The element `j` of the result according to the outcome of its chunk. -/
def elem (out : Nat → Obj β ε) (c j : Nat) : Option β :=
  match out (j / c) with
  | .ok l => l[j % c]?
  | .error _ => none

/-- The value while the chunks `ds` have been delivered. -/
def filled (out : Nat → Obj β ε) (c n : Nat) (ds : List Nat) : List (Option β) :=
  (List.range n).map (fun j => if j / c ∈ ds then elem out c j else none)

theorem filled_nil (out : Nat → Obj β ε) (c n : Nat) : filled out c n [] = List.replicate n none := by
  unfold filled
  apply List.ext_getElem <;> simp

theorem setSlice_filled (out : Nat → Obj β ε) (c n : Nat) (hc : 1 ≤ c) (ds : List Nat) (i : Nat) (l : List β)
    (hi : i * c < n) (ho : out i = .ok l) (hl : l.length = min c (n - i * c)) :
    setSlice (filled out c n ds) (i * c) ((i + 1) * c) (l.map some) = filled out c n (ds ++ [i]) := by
  have hic : (i + 1) * c = i * c + c := by ring
  have hlen : (filled out c n ds).length = n := by simp [filled]
  have hmax : max (i * c) ((i + 1) * c) = i * c + c := by omega
  unfold setSlice
  rw [hmax]
  apply List.ext_getElem?
  intro j
  by_cases hj : j < n
  · have rhs : (filled out c n (ds ++ [i]))[j]? = some (if j / c ∈ ds ++ [i] then elem out c j else none) := by
      simp [filled, hj]
    have old : (filled out c n ds)[j]? = some (if j / c ∈ ds then elem out c j else none) := by
      simp [filled, hj]
    rw [rhs]
    rcases Nat.lt_or_ge j (i * c) with h1 | h1
    · have hji : j / c ≠ i := by
        intro h
        have := Nat.div_mul_le_self j c
        rw [h] at this
        omega
      rw [List.append_assoc, List.getElem?_append_left (by simp [hlen]; omega), List.getElem?_take, if_pos h1, old]
      simp [hji]
    · rcases Nat.lt_or_ge j (i * c + c) with h2 | h2
      · have hji : j / c = i := by
          rw [Nat.div_eq_iff (by omega)]
          omega
        have hjm : j % c = j - i * c := by
          have := Nat.div_add_mod j c
          rw [hji, Nat.mul_comm] at this
          omega
        have hlt : (List.take (i * c) (filled out c n ds)).length = i * c := by simp [hlen]; omega
        rw [List.getElem?_append_left (by simp [hlen, hl]; omega), List.getElem?_append_right (by rw [hlt]; exact h1),
          hlt, List.getElem?_map]
        simp only [hji, List.mem_append, List.mem_singleton, or_true, if_true]
        unfold elem
        rw [hji, ho, hjm]
        have hb : j - i * c < l.length := by rw [hl]; omega
        simp [List.getElem?_eq_getElem hb]
      · have hji : j / c ≠ i := by
          intro h
          rw [Nat.div_eq_iff (by omega)] at h
          omega
        have hlf : (List.take (i * c) (filled out c n ds) ++ List.map some l).length = i * c + c := by
          simp [hlen, hl]; omega
        rw [List.getElem?_append_right (by rw [hlf]; exact h2), hlf, List.getElem?_drop]
        have e : i * c + c + (j - (i * c + c)) = j := by omega
        rw [e, old]
        simp [hji]
  · have rhs : (filled out c n (ds ++ [i]))[j]? = none := by
      simp [filled]; omega
    rw [rhs, List.getElem?_eq_none_iff]
    simp only [List.length_append, List.length_take, List.length_map, List.length_drop, hlen, hl]
    omega

theorem firstError_append (out : Nat → Obj β ε) (ds : List Nat) (i : Nat) :
    firstError out (ds ++ [i]) = (firstError out ds).or (match out i with | .error e => some e | .ok _ => none) := by
  induction ds with
  | nil => simp only [List.nil_append, firstError]; cases out i <;> rfl
  | cons d ds ih =>
    simp only [List.cons_append, firstError]
    cases out d with
    | error e => rfl
    | ok l => exact ih

/-- The state of a map handle after the chunks `ds` were delivered. -/
structure MapInv (out : Nat → Obj β ε) (c n : Nat) (ds : List Nat) (r : MapRes β ε) : Prop where
  chunk : r.chunksize = c
  left : r.left = (numChunks n c : Int) - ds.length
  ready : r.ready = true ↔ ds.length = numChunks n c
  value : r.value = match firstError out ds with
    | some e => .error e
    | none => .ok (filled out c n ds)

theorem MapInv.new (out : Nat → Obj β ε) (c n : Nat) (hc : 1 ≤ c) (hn : 1 ≤ n) (cb ecb : Bool) :
    MapInv out c n [] (MapRes.new c n cb ecb) := by
  unfold MapRes.new
  rw [if_neg (by omega), numChunks_eq n c hc]
  have hpos : 0 < numChunks n c := (lt_numChunks n c 0 hc).mpr (by omega)
  refine ⟨rfl, by simp, ?_, ?_⟩
  · simp only [List.length_nil, Bool.false_eq_true, false_iff]; omega
  · simp [firstError, filled_nil]

theorem MapInv.set (out : Nat → Obj β ε) (c n : Nat) (hc : 1 ≤ c) (ds : List Nat) (r : MapRes β ε)
    (h : MapInv out c n ds r) (i : Nat) (hi : i < numChunks n c) (hds : ds.length < numChunks n c)
    (hlen : ∀ l, out i = .ok l → l.length = min c (n - i * c)) :
    MapInv out c n (ds ++ [i]) (r.set i (out i)) := by
  have hic : i * c < n := (lt_numChunks n c i hc).mp hi
  have hnr : r.ready = false := by
    rw [← Bool.not_eq_true, h.ready]; omega
  have hleft : r.left - 1 = (numChunks n c : Int) - (ds ++ [i]).length := by
    rw [h.left]; simp; omega
  have hzero : r.left - 1 = 0 ↔ (ds ++ [i]).length = numChunks n c := by
    rw [hleft]; omega
  have hv := h.value
  have hch := h.chunk
  have hfa := firstError_append out ds i
  unfold MapRes.set
  generalize ho : out i = o
  rw [ho] at hfa
  rcases o with e | l
  · cases hfe : firstError out ds with
    | none =>
      rw [hfe] at hv hfa
      rw [hv]
      dsimp only
      by_cases hz : r.left - 1 = 0
      · rw [if_pos hz]
        exact ⟨hch, hleft, by simp [hzero.mp hz] , by rw [hfa]; rfl⟩
      · rw [if_neg hz]
        exact ⟨hch, hleft, by simp only [hnr, Bool.false_eq_true, false_iff]; exact fun q => hz (hzero.mpr q), by rw [hfa]; rfl⟩
    | some e' =>
      rw [hfe] at hv hfa
      rw [hv]
      dsimp only
      by_cases hz : r.left - 1 = 0
      · rw [if_pos hz]
        exact ⟨hch, hleft, by simp [hzero.mp hz], by rw [hfa]; rfl⟩
      · rw [if_neg hz]
        exact ⟨hch, hleft, by simp only [hnr, Bool.false_eq_true, false_iff]; exact fun q => hz (hzero.mpr q), by rw [hfa]; rfl⟩
  · cases hfe : firstError out ds with
    | none =>
      rw [hfe] at hv hfa
      rw [hv]
      dsimp only
      have hs := setSlice_filled out c n hc ds i l hic ho (hlen l ho)
      rw [hch]
      by_cases hz : r.left - 1 = 0
      · rw [if_pos hz]
        exact ⟨rfl, hleft, by simp [hzero.mp hz], by rw [hfa]; simp [hs]⟩
      · rw [if_neg hz]
        exact ⟨rfl, hleft, by simp only [hnr, Bool.false_eq_true, false_iff]; exact fun q => hz (hzero.mpr q),
          by rw [hfa]; simp [hs]⟩
    | some e' =>
      rw [hfe] at hv hfa
      rw [hv]
      dsimp only
      by_cases hz : r.left - 1 = 0
      · rw [if_pos hz]
        exact ⟨hch, hleft, by simp [hzero.mp hz], by rw [hfa]; rfl⟩
      · rw [if_neg hz]
        exact ⟨hch, hleft, by simp only [hnr, Bool.false_eq_true, false_iff]; exact fun q => hz (hzero.mpr q), by rw [hfa]; rfl⟩

theorem nodup_lt_length {ds : List Nat} (hn : ds.Nodup) (k : Nat) (hb : ∀ i ∈ ds, i < k) : ds.length ≤ k := by
  have h : ds ⊆ List.range k := fun i hi => List.mem_range.mpr (hb i hi)
  have := (List.subperm_of_subset hn h).length_le
  simpa using this

/-- Every delivery order, at every moment. -/
theorem MapInv.deliver (out : Nat → Obj β ε) (c n : Nat) (hc : 1 ≤ c) (hn : 1 ≤ n) (cb ecb : Bool)
    (hlen : ∀ i < numChunks n c, ∀ l, out i = .ok l → l.length = min c (n - i * c)) (ds : List Nat) (hnd : ds.Nodup)
    (hb : ∀ i ∈ ds, i < numChunks n c) :
    MapInv out c n ds (deliverMap out (MapRes.new c n cb ecb) ds) := by
  induction ds using List.reverseRecOn with
  | nil => exact MapInv.new out c n hc hn cb ecb
  | append_singleton ds i ih =>
    have hle := nodup_lt_length hnd _ hb
    rw [List.length_append, List.length_singleton] at hle
    have hnd' := (List.nodup_append.mp hnd).1
    have hii := hb i (by simp)
    unfold deliverMap
    rw [List.foldl_append]
    exact MapInv.set out c n hc ds _ (ih hnd' (fun j hj => hb j (by simp [hj]))) i hii (by omega) (hlen i hii)

theorem perm_range_of_length {ds : List Nat} (hn : ds.Nodup) (k : Nat) (hb : ∀ i ∈ ds, i < k) (hl : ds.length = k) :
    ds.Perm (List.range k) := by
  have h : ds ⊆ List.range k := fun i hi => List.mem_range.mpr (hb i hi)
  exact (List.subperm_of_subset hn h).perm_of_length_le (by simp [hl])

theorem filled_all (out : Nat → Obj β ε) (c n : Nat) (hc : 1 ≤ c) (ds : List Nat)
    (hp : ds.Perm (List.range (numChunks n c))) : filled out c n ds = (List.range n).map (elem out c) := by
  unfold filled
  apply List.map_congr_left
  intro j hj
  rw [if_pos]
  rw [hp.mem_iff, List.mem_range]
  exact div_lt_numChunks n c j hc (List.mem_range.mp hj)

theorem mapCaller_length (f : α → Except ε β) (xs : List α) (ys : List β) (h : mapCaller f xs = .ok ys) :
    ys.length = xs.length := by
  induction xs generalizing ys with
  | nil => simp only [mapCaller] at h; cases h; rfl
  | cons x xs ih =>
    simp only [mapCaller] at h
    cases hf : f x with
    | error e => rw [hf] at h; cases h
    | ok y =>
      rw [hf] at h
      cases hm : mapCaller f xs with
      | error e => rw [hm] at h; cases h
      | ok zs =>
        rw [hm] at h
        cases h
        simp [ih zs hm]

theorem mapCaller_ok (f : α → Except ε β) (g : α → β) (xs : List α) (h : ∀ x ∈ xs, f x = .ok (g x)) :
    mapCaller f xs = .ok (xs.map g) := by
  induction xs with
  | nil => rfl
  | cons x xs ih =>
    simp only [mapCaller]
    rw [h x (by simp), ih (fun y hy => h y (by simp [hy]))]
    rfl

theorem mapCaller_error (f : α → Except ε β) (xs : List α) (e : ε) (h : mapCaller f xs = .error e) :
    ∃ x ∈ xs, f x = .error e := by
  induction xs with
  | nil => simp only [mapCaller] at h; cases h
  | cons x xs ih =>
    simp only [mapCaller] at h
    cases hf : f x with
    | error e' => rw [hf] at h; cases h; exact ⟨x, by simp, hf⟩
    | ok y =>
      rw [hf] at h
      cases hm : mapCaller f xs with
      | error e' =>
        rw [hm] at h; cases h
        rcases ih hm with ⟨z, hz, hfz⟩
        exact ⟨z, by simp [hz], hfz⟩
      | ok zs => rw [hm] at h; cases h

/-- the outcome of task `i` of a map call -/
def taskOut (f : α → Except ε β) (c : Nat) (xs : List α) (i : Nat) : Obj β ε := mapCaller f ((xs.drop (i * c)).take c)

theorem taskOut_length (f : α → Except ε β) (c : Nat) (xs : List α) (i : Nat) (l : List β)
    (h : taskOut f c xs i = .ok l) : l.length = min c (xs.length - i * c) := by
  rw [mapCaller_length f _ l h]
  simp

theorem firstError_none (out : Nat → Obj β ε) (ds : List Nat) :
    firstError out ds = none ↔ ∀ i ∈ ds, ∃ l, out i = .ok l := by
  induction ds with
  | nil => simp [firstError]
  | cons d ds ih =>
    simp only [firstError, List.mem_cons, forall_eq_or_imp]
    cases h : out d with
    | error e => simp
    | ok l => simp [ih]

theorem mapChunksize_pos (w n : Nat) (hw : 1 ≤ w) (hn : 1 ≤ n) (c : Option Nat) (hc : ∀ k, c = some k → 1 ≤ k) :
    1 ≤ mapChunksize w n c := by
  unfold mapChunksize
  rw [if_neg (by omega)]
  cases c with
  | some k => exact hc k rfl
  | none =>
    simp only [Option.getD_none]
    by_cases h : n % (w * 4) ≠ 0
    · rw [if_pos h]; exact Nat.le_add_left 1 _
    · rw [if_neg h]
      have hd : w * 4 ∣ n := Nat.dvd_of_mod_eq_zero (not_not.mp h)
      have := Nat.le_of_dvd (by omega) hd
      have := Nat.div_pos this (by omega)
      omega

end Machin.Pool
