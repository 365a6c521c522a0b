import Verif.Load.Spec
import Mathlib.Tactic.Common
import Mathlib.Data.List.Forall2

/-! # Lemmas about saving and loading -/

namespace Machin.Load

open Spec

variable {P : Type}

theorem versionStr_nat (v : Nat) : versionStr (v : Int) = Nat.toDigits 10 v := by
  unfold versionStr
  rw [if_neg (by omega)]
  rfl

theorem takeWhile_digits (ds r : List Char) (h : ∀ c ∈ ds, c.isDigit = true) :
    (ds ++ '_' :: r).takeWhile Char.isDigit = ds ∧ (ds ++ '_' :: r).dropWhile Char.isDigit = '_' :: r := by
  induction ds with
  | nil =>
    have : Char.isDigit '_' = false := by decide
    simp [this]
  | cons d ds ih =>
    have hd := h d (by simp)
    have := ih (fun c hc => h c (List.mem_cons_of_mem _ hc))
    simp [List.takeWhile_cons, List.dropWhile_cons, hd, this]

theorem nameChar_of_valid (c : Char) (h : ('a' ≤ c ∧ c ≤ 'z') ∨ ('A' ≤ c ∧ c ≤ 'Z') ∨ ('0' ≤ c ∧ c ≤ '9') ∨ c = '_' ∨ c = '-') :
    nameChar c = true := by
  unfold nameChar Char.isAlpha Char.isDigit Char.isUpper Char.isLower
  rcases h with ⟨h1, h2⟩ | ⟨h1, h2⟩ | ⟨h1, h2⟩ | rfl | rfl
  · have : c.val ≥ 97 ∧ c.val ≤ 122 := ⟨h1, h2⟩
    simp [this]
  · have : c.val ≥ 65 ∧ c.val ≤ 90 := ⟨h1, h2⟩
    simp [this]
  · have : c.val ≥ 48 ∧ c.val ≤ 57 := ⟨h1, h2⟩
    simp [this]
  · decide
  · decide

theorem parse_fileName (n : Name) (v : Nat) (hn : Valid n) : parseFile (fileName n (versionStr v)) = some (n, v) := by
  rw [versionStr_nat]
  have hd : ∀ c ∈ (Nat.toDigits 10 v).reverse, c.isDigit = true := by
    intro c hc
    exact Nat.isDigit_of_mem_toDigits (by omega) (by omega) (List.mem_reverse.mp hc)
  have e : (fileName n (Nat.toDigits 10 v)).reverse = 't' :: 'p' :: '.' :: ((Nat.toDigits 10 v).reverse ++ '_' :: n.reverse) := by
    simp [fileName, ext]
  have e3 : (fileName n (Nat.toDigits 10 v)).reverse.take 3 = ext.reverse := by rw [e]; rfl
  have e4 : (fileName n (Nat.toDigits 10 v)).reverse.drop 3 = (Nat.toDigits 10 v).reverse ++ '_' :: n.reverse := by rw [e]; rfl
  unfold parseFile
  rw [if_pos e3, e4]
  dsimp only
  rw [(takeWhile_digits _ _ hd).1, (takeWhile_digits _ _ hd).2]
  rw [if_pos]
  · simp
  · refine ⟨by simp [Nat.toDigits_ne_nil], rfl, by simpa using hn.1, ?_⟩
    rw [List.all_eq_true]
    intro c hc
    exact nameChar_of_valid c (hn.2 c (List.mem_reverse.mp hc))

theorem mem_versions {dir : Dir P} {name : Name} {v : Nat} :
    v ∈ versions dir name ↔ ∃ f ∈ dir.keys, parseFile f = some (name, v) := by
  unfold versions
  rw [List.mem_filterMap]
  constructor
  · rintro ⟨f, hf, h⟩
    refine ⟨f, hf, ?_⟩
    cases hp : parseFile f with
    | none => rw [hp] at h; cases h
    | some nv =>
      rcases nv with ⟨n, w⟩
      rw [hp] at h
      dsimp only at h
      split at h
      · rename_i hn; cases h; rw [hn]
      · cases h
  · rintro ⟨f, hf, h⟩
    exact ⟨f, hf, by rw [h]; simp⟩

theorem versions_iff {dir : Dir P} {names : List Name} (hc : Clean dir names) {n : Name} (hn : n ∈ names) (hv : Valid n) (v : Nat) :
    v ∈ versions dir n ↔ Has dir n v := by
  rw [mem_versions]
  constructor
  · rintro ⟨f, hf, hp⟩
    unfold Has
    rw [← hc f hf n v hp hn]
    exact hf
  · intro h
    exact ⟨_, h, parse_fileName n v hv⟩

theorem versions_of_has {dir : Dir P} {n : Name} (hv : Valid n) {v : Nat} (h : Has dir n v) : v ∈ versions dir n :=
  mem_versions.mpr ⟨_, h, parse_fileName n v hv⟩

theorem hasVersion_nat {dir : Dir P} {n : Name} {v : Nat} : hasVersion dir (v : Int) n = true ↔ v ∈ versions dir n := by
  unfold hasVersion
  rw [List.any_eq_true]
  constructor
  · rintro ⟨w, hw, h⟩
    have : (w : Int) = v := by simpa using h
    have : w = v := by omega
    rwa [← this]
  · intro h
    exact ⟨v, h, by simp⟩

theorem hasVersion_neg {dir : Dir P} {n : Name} {v : Int} (hv : v < 0) : hasVersion dir v n = false := by
  unfold hasVersion
  rw [List.any_eq_false]
  intro w _
  have : ¬ ((w : Int) = v) := by omega
  simp [this]

theorem maxVersion_le (vs : List Nat) : ∀ v ∈ vs, v ≤ maxVersion vs := by
  induction vs with
  | nil => intro v hv; cases hv
  | cons w vs ih =>
    intro v hv
    unfold maxVersion
    rcases List.mem_cons.mp hv with q | q
    · omega
    · have := ih v q; omega

theorem maxVersion_mem (vs : List Nat) (h : vs ≠ []) : maxVersion vs ∈ vs := by
  induction vs with
  | nil => exact absurd rfl h
  | cons w vs ih =>
    unfold maxVersion
    cases vs with
    | nil => simp [maxVersion]
    | cons x xs =>
      have := ih (by simp)
      rcases Nat.le_total w (maxVersion (x :: xs)) with hle | hle
      · rw [Nat.max_eq_right hle]; exact List.mem_cons_of_mem _ this
      · rw [Nat.max_eq_left hle]; simp

theorem mem_common {dir : Dir P} {names : List Name} (hne : names ≠ []) (v : Nat) :
    v ∈ common dir names ↔ ∀ n ∈ names, v ∈ versions dir n := by
  cases names with
  | nil => exact absurd rfl hne
  | cons n ns =>
    unfold common
    rw [List.mem_filter, List.all_eq_true, List.forall_mem_cons]
    simp

theorem loadAll_loaded {dir : Dir P} {v : Nat} (names : List Name) (h : ∀ n ∈ names, Has dir n v) :
    (loadAll dir v names).2 = none ∧ Loaded dir v names (loadAll dir v names).1 := by
  induction names with
  | nil => exact ⟨rfl, List.Forall₂.nil⟩
  | cons n ns ih =>
    have h1 := ih (fun m hm => h m (List.mem_cons_of_mem _ hm))
    have h2 : (dir.get? (fileName n (versionStr v))).isSome := (PyDict.get?_isSome_iff dir _).mpr (h n (by simp))
    cases hg : dir.get? (fileName n (versionStr v)) with
    | none => rw [hg] at h2; cases h2
    | some c =>
      unfold loadAll
      rw [hg]
      exact ⟨h1.1, List.Forall₂.cons ⟨rfl, hg⟩ h1.2⟩

theorem loadAll_map {dir : Dir P} {v : Nat} (g : Name → P) (names : List Name)
    (h : ∀ n ∈ names, dir.get? (fileName n (versionStr v)) = some (g n)) :
    loadAll dir v names = (names.map (fun n => (n, g n)), none) := by
  induction names with
  | nil => rfl
  | cons n ns ih =>
    unfold loadAll
    rw [h n (by simp), ih (fun m hm => h m (List.mem_cons_of_mem _ hm))]
    rfl

theorem fileName_inj {n m suffix : Name} (h : fileName n suffix = fileName m suffix) : n = m := by
  unfold fileName at h
  exact List.append_cancel_right (List.append_cancel_right h)

/-- Distinct names: `restore_map` is the list of pairs. -/
theorem foldl_set_distinct {A B : Type} (f : A → Name) (g : A → B) (rs : List A) (d : PyDict Name B)
    (h : (d.keys ++ rs.map f).Nodup) :
    rs.foldl (fun d r => d.set (f r) (g r)) d = d ++ rs.map (fun r => (f r, g r)) := by
  induction rs generalizing d with
  | nil => simp
  | cons r rs ih =>
    have hr : f r ∉ d.keys := by
      intro hin
      rw [List.nodup_append] at h
      exact h.2.2 _ hin _ (by simp) rfl
    rw [List.foldl_cons, PyDict.set_of_not_mem hr, ih]
    · simp
    · rw [PyDict.keys_append]
      simpa [PyDict.keys] using h

/-- The files written by `save`. -/
theorem get_foldl_set {A : Type} (f : A → Name) (g : A → P) (rs : List A) (d : Dir P) (h : (rs.map f).Nodup) (r : A)
    (hr : r ∈ rs) : (rs.foldl (fun d r => d.set (f r) (g r)) d).get? (f r) = some (g r) := by
  have keep : ∀ (rs : List A) (d : Dir P) (k : Name), k ∉ rs.map f →
      (rs.foldl (fun d r => d.set (f r) (g r)) d).get? k = d.get? k := by
    intro rs
    induction rs with
    | nil => intro d k _; rfl
    | cons x rs ih =>
      intro d k hk
      rw [List.map_cons, List.mem_cons, not_or] at hk
      rw [List.foldl_cons, ih _ k hk.2, PyDict.get?_set_ne _ hk.1]
  induction rs generalizing d with
  | nil => cases hr
  | cons x rs ih =>
    rw [List.map_cons, List.nodup_cons] at h
    rw [List.foldl_cons]
    rcases List.mem_cons.mp hr with q | q
    · subst q
      rw [keep rs _ _ h.1, PyDict.get?_set_self]
    · exact ih _ h.2 q

/-- Other files are kept by `save`. -/
theorem get_foldl_set_other {A : Type} (f : A → Name) (g : A → P) (rs : List A) (d : Dir P) (k : Name) (hk : k ∉ rs.map f) :
    (rs.foldl (fun d r => d.set (f r) (g r)) d).get? k = d.get? k := by
  induction rs generalizing d with
  | nil => rfl
  | cons x rs ih =>
    rw [List.map_cons, List.mem_cons, not_or] at hk
    rw [List.foldl_cons, ih _ hk.2, PyDict.get?_set_ne _ hk.1]

end Machin.Load
