import Verif.Media.Model
import Std.Data.String.ToNat
import Std.Data.String.ToInt

/-! Helper lemmas for media files. -/

namespace Machin.Media

theorem str_append_left {s t u : String} (h : s ++ t = s ++ u) : t = u := by
  have := congrArg String.toList h
  rw [String.toList_append, String.toList_append] at this
  exact String.toList_inj.1 (List.append_cancel_left this)

theorem str_append_right {s t u : String} (h : t ++ s = u ++ s) : t = u := by
  have := congrArg String.toList h
  rw [String.toList_append, String.toList_append] at this
  exact String.toList_inj.1 (List.append_cancel_right this)

/-- Cut at the last occurrence of a character. -/
theorem cut_last {α : Type} {x : α} {a b u v : List α} (hu : x ∉ u) (hv : x ∉ v) (h : a ++ x :: u = b ++ x :: v) : a = b ∧ u = v := by
  rcases List.append_eq_append_iff.1 h with ⟨w, hw1, hw2⟩ | ⟨w, hw1, hw2⟩
  · cases w with
    | nil => simp at hw1 hw2; exact ⟨hw1.symm, hw2⟩
    | cons y w =>
      simp only [List.cons_append, List.cons.injEq] at hw2
      exact absurd (by rw [hw2.2]; simp) hu
  · cases w with
    | nil => simp at hw1 hw2; exact ⟨hw1, hw2.symm⟩
    | cons y w =>
      simp only [List.cons_append, List.cons.injEq] at hw2
      exact absurd (by rw [hw2.2]; simp) hv

theorem digits_no_underscore (n : Nat) : '_' ∉ n.repr.toList := by
  rw [Nat.toList_repr]
  intro h
  have := Nat.isDigit_of_mem_toDigits (by decide) (by decide) h
  revert this; decide

theorem repr_no_underscore (n : Int) : '_' ∉ n.repr.toList := by
  rw [Int.repr_eq_if]
  split
  · exact digits_no_underscore _
  · rw [String.toList_append]
    intro h
    rcases List.mem_append.1 h with h | h
    · revert h; decide
    · exact digits_no_underscore _ h

/-- The name of an image determines name and number. -/
theorem imageName_inj {n m : String} {a b : Int} {ext : String} (h : imageName n a ext = imageName m b ext) : n = m ∧ a = b := by
  have h := str_append_right h
  have := congrArg String.toList h
  simp only [String.toList_append] at this
  have hu : "_".toList = ['_'] := rfl
  rw [hu, List.append_assoc, List.append_assoc, List.singleton_append, List.singleton_append] at this
  obtain ⟨h1, h2⟩ := cut_last (repr_no_underscore a) (repr_no_underscore b) this
  exact ⟨String.toList_inj.1 h1, Int.repr_injective (String.toList_inj.1 h2)⟩

/-- Pigeonhole. -/
theorem nodup_length_le {α : Type} [DecidableEq α] : ∀ {l m : List α}, l.Nodup → (∀ x ∈ l, x ∈ m) → l.length ≤ m.length
  | [], m, _, _ => Nat.zero_le _
  | x :: l, m, hn, hs => by
    have hx := hs x (by simp)
    have hn' := List.nodup_cons.1 hn
    have := nodup_length_le (l := l) (m := m.erase x) hn'.2 (by
      intro y hy
      have hne : y ≠ x := by rintro rfl; exact hn'.1 hy
      exact (List.mem_erase_of_ne hne).2 (hs y (by simp [hy])))
    have hl := List.length_erase_of_mem hx
    have hpos := List.length_pos_of_mem hx
    simp only [List.length_cons]
    omega

/-- The `k`-th path tried. -/
def cand (path root ext : String) (k : Nat) : String := if k = 0 then path else root ++ ("_" ++ k.repr) ++ ext

theorem cand_inj {path root ext : String} {j k : Nat} (hj : j ≠ 0) (hk : k ≠ 0) (h : cand path root ext j = cand path root ext k) : j = k := by
  simp only [cand, hj, hk, if_false] at h
  exact Nat.repr_injective (str_append_left (str_append_left (str_append_right h)))

theorem enumLoop_eq (exist : String → Bool) (path root ext : String) : ∀ (d fuel c : Nat), d < fuel →
    (∀ j, c ≤ j → j < c + d → exist (cand path root ext j) = true) → exist (cand path root ext (c + d)) = false →
    enumLoop exist root ext fuel (cand path root ext c) c = some (cand path root ext (c + d))
  | 0, fuel + 1, c, _, _, hf => by
    simp only [enumLoop]
    rw [Nat.add_zero] at hf ⊢
    simp [hf]
  | d + 1, fuel + 1, c, hd, ht, hf => by
    simp only [enumLoop]
    rw [if_pos (ht c (Nat.le_refl _) (by omega))]
    have hc : root ++ ("_" ++ (c + 1).repr) ++ ext = cand path root ext (c + 1) := by simp [cand]
    rw [hc, enumLoop_eq exist path root ext d fuel (c + 1) (by omega) (fun j h1 h2 => ht j (by omega) (by omega))
      (by rw [show c + 1 + d = c + (d + 1) by omega]; exact hf)]
    rw [show c + 1 + d = c + (d + 1) by omega]

theorem least_free (p : Nat → Bool) : ∀ n, p n = false → ∃ k, k ≤ n ∧ p k = false ∧ ∀ j, j < k → p j = true
  | 0, h => ⟨0, Nat.le_refl _, h, fun j hj => absurd hj (Nat.not_lt_zero _)⟩
  | n + 1, h => by
    by_cases hex : ∃ m, m ≤ n ∧ p m = false
    · obtain ⟨m, hm, hp⟩ := hex
      obtain ⟨k, hk, h1, h2⟩ := least_free p m hp
      exact ⟨k, by omega, h1, h2⟩
    · refine ⟨n + 1, Nat.le_refl _, h, ?_⟩
      intro j hj
      cases hp : p j with
      | true => rfl
      | false => exact absurd ⟨j, by omega, hp⟩ hex
termination_by n => n

theorem has_iff {β : Type} (fs : Files β) (p : String) : fs.has p = true ↔ p ∈ fs.map (·.1) := by
  simp [Files.has, List.any_eq_true, List.mem_map]

theorem free_exists {β : Type} (fs : Files β) (path root ext : String) : ∃ k, k ≤ fs.length + 1 ∧ fs.has (cand path root ext k) = false ∧
    ∀ j, j < k → fs.has (cand path root ext j) = true := by
  have : ∃ n, n ≤ fs.length + 1 ∧ fs.has (cand path root ext n) = false := by
    apply Classical.byContradiction
    intro hcon
    have hall : ∀ n, n ≤ fs.length + 1 → fs.has (cand path root ext n) = true := by
      intro n hn
      cases hp : fs.has (cand path root ext n) with
      | true => rfl
      | false => exact absurd ⟨n, hn, hp⟩ hcon
    have hnd : ((List.range (fs.length + 1)).map fun k => cand path root ext (k + 1)).Nodup := by
      rw [List.nodup_iff_pairwise_ne, List.pairwise_map]
      refine List.Pairwise.imp ?_ List.nodup_range
      intro a b hab heq
      have := cand_inj (Nat.succ_ne_zero _) (Nat.succ_ne_zero _) heq
      omega
    have hle := nodup_length_le hnd (m := fs.map (·.1)) (by
      intro x hx
      obtain ⟨k, hk, rfl⟩ := List.mem_map.1 hx
      have := List.mem_range.1 hk
      exact (has_iff fs _).1 (hall (k + 1) (by omega)))
    simp at hle
    omega
  obtain ⟨n, hn, hp⟩ := this
  obtain ⟨k, hk, h1, h2⟩ := least_free (fun k => fs.has (cand path root ext k)) n hp
  exact ⟨k, by omega, h1, h2⟩

theorem read_write {β : Type} (fs : Files β) (p : String) (c : β) (q : String) :
    (fs.write p c).read q = if q = p then some c else fs.read q := by
  unfold Files.write Files.read
  by_cases h : q = p
  · subst h; simp
  · rw [if_neg h, List.find?_cons_of_neg (by simp [Ne.symm h]), List.find?_filter]
    congr 1
    congr 1
    funext f
    by_cases hf : f.1 = q
    · simp [hf, h]
    · simp [hf]

theorem read_none {β : Type} (fs : Files β) (p : String) : fs.read p = none ↔ fs.has p = false := by
  simp [Files.read, Files.has]

theorem floor_nonneg {x : Rat} (h : 0 ≤ x) : 0 ≤ x.floor := Rat.le_floor_iff.2 h

theorem toByte_range {x : Rat} (h0 : 0 ≤ x) (h1 : x < 256) : ∃ v : Nat, v ≤ 255 ∧ toByte x = ((v : Int) : Rat) ∧ ((v : Int) : Rat) ≤ x ∧ x < (((v : Int) + 1 : Int) : Rat) := by
  have hf := floor_nonneg h0
  have hlt : x.floor < 256 := by
    have hle := Rat.floor_le x
    have h2 : (x.floor : Rat) < ((256 : Int) : Rat) := Rat.not_le.1 fun hc => Rat.not_le.2 h1 (Rat.le_trans hc hle)
    exact Rat.intCast_lt_intCast.1 h2
  refine ⟨x.floor.toNat, by omega, ?_, ?_, ?_⟩
  · unfold toByte
    rw [if_pos h0, Int.emod_eq_of_lt hf hlt, Int.toNat_of_nonneg hf]
  · rw [Int.toNat_of_nonneg hf]; exact Rat.floor_le x
  · rw [Int.toNat_of_nonneg hf]; exact Rat.lt_floor_add_one x

theorem toByte_toByte (x : Rat) : toByte (toByte x) = toByte x := by
  have : ∀ n : Int, 0 ≤ n → n < 256 → toByte (n : Rat) = (n : Rat) := by
    intro n h0 h1
    unfold toByte
    rw [if_pos (Rat.intCast_nonneg.2 h0), Rat.floor_intCast, Int.emod_eq_of_lt h0 h1]
  exact this _ (Int.emod_nonneg _ (by decide)) (Int.emod_lt_of_pos _ (by decide))

end Machin.Media
