import Verif.Ars.Model
import Verif.Ars.Spec
import Mathlib.Algebra.BigOperators.Group.List.Basic
import Mathlib.Tactic.FieldSimp
import Mathlib.Tactic.Ring
import Mathlib.Tactic.Linarith

/-! # Lemmas for ARS -/

namespace Machin.Ars

open Spec

/-- Sum of squares. -/
def sumsq (xs : List ℚ) : ℚ := (xs.map fun x => x * x).sum

theorem dev_sum (xs : List ℚ) (m : ℚ) :
    (xs.map fun x => (x - m) * (x - m)).sum = sumsq xs - 2 * m * xs.sum + xs.length * (m * m) := by
  induction xs with
  | nil => simp [sumsq]
  | cons x xs ih =>
    unfold sumsq at ih ⊢
    simp only [List.map_cons, List.sum_cons, List.length_cons, ih]
    push_cast
    ring

theorem mean_mul (xs : List ℚ) : mean xs * xs.length = xs.sum := by
  unfold mean
  by_cases h : xs = []
  · subst h; simp
  · have : (xs.length : ℚ) ≠ 0 := by
      have := List.length_pos_iff.mpr h
      positivity
    field_simp

theorem sqdev_eq (xs : List ℚ) : sqdev xs = sumsq xs - xs.length * (mean xs * mean xs) := by
  unfold sqdev
  rw [dev_sum, ← mean_mul xs]
  ring

theorem sum_append (xs ys : List ℚ) : (xs ++ ys).sum = xs.sum + ys.sum := List.sum_append

theorem sumsq_append (xs ys : List ℚ) : sumsq (xs ++ ys) = sumsq xs + sumsq ys := by
  unfold sumsq
  rw [List.map_append, List.sum_append]

theorem mean_perm {xs ys : List ℚ} (h : xs.Perm ys) : mean xs = mean ys := by
  unfold mean
  rw [h.sum_eq, h.length_eq]

theorem sqdev_perm {xs ys : List ℚ} (h : xs.Perm ys) : sqdev xs = sqdev ys := by
  rw [sqdev_eq, sqdev_eq, mean_perm h, h.length_eq]
  unfold sumsq
  rw [(h.map _).sum_eq]

/-- The statistic is that of the sequence. -/
structure Rep (s : Stat) (xs : List ℚ) : Prop where
  n : s.n = xs.length
  M : s.M = some (mean xs)
  S : s.S = some (sqdev xs)

theorem Rep.new : Rep Stat.new [] := ⟨rfl, by simp [Stat.new, mean], by simp [Stat.new, sqdev]⟩

theorem Rep.perm {s : Stat} {xs ys : List ℚ} (h : Rep s xs) (hp : xs.Perm ys) : Rep s ys :=
  ⟨by rw [h.n, hp.length_eq], by rw [h.M, mean_perm hp], by rw [h.S, sqdev_perm hp]⟩

theorem Rep.unique {s s' : Stat} {xs : List ℚ} (h : Rep s xs) (h' : Rep s' xs) : s = s' := by
  cases s; cases s'
  have := h.n; have := h.M; have := h.S; have := h'.n; have := h'.M; have := h'.S
  simp_all

theorem Rep.update {s o : Stat} {xs ys : List ℚ} (hs : Rep s xs) (ho : Rep o ys) (h : xs ++ ys ≠ []) :
    Rep (s.update o) (xs ++ ys) := by
  have hpos : 0 < xs.length + ys.length := by
    have := List.length_pos_iff.mpr h
    simpa using this
  have hq : ((xs.length : ℚ) + ys.length) ≠ 0 := by
    have : (0 : ℚ) < ((xs.length + ys.length : Nat) : ℚ) := by exact_mod_cast hpos
    push_cast at this
    linarith
  have hm : mean (xs ++ ys) = (xs.length * mean xs + ys.length * mean ys) / (xs.length + ys.length) := by
    have : mean (xs ++ ys) = (xs.sum + ys.sum) / (xs.length + ys.length) := by
      unfold mean
      rw [sum_append, List.length_append]
      push_cast
      rfl
    rw [this, ← mean_mul xs, ← mean_mul ys]
    congr 1
    ring
  unfold Stat.update
  rw [hs.n, ho.n]
  simp only
  rw [if_neg (by omega), hs.M, ho.M, hs.S, ho.S]
  refine ⟨by simp, ?_, ?_⟩
  · simp only [lift2]
    rw [hm]
    push_cast
    rfl
  · simp only [lift2]
    rw [sqdev_eq (xs ++ ys), hm, sqdev_eq xs, sqdev_eq ys, sumsq_append, List.length_append]
    push_cast
    congr 1
    field_simp
    ring

theorem Rep.push {s : Stat} {xs : List ℚ} (hs : Rep s xs) (x : ℚ) : Rep (s.push x) (xs ++ [x]) := by
  unfold Stat.push
  simp only [hs.n]
  by_cases h0 : xs = []
  · subst h0
    simp only [List.length_nil, Nat.zero_add, if_true]
    refine ⟨rfl, by simp [mean], ?_⟩
    rw [hs.S]
    simp [sqdev, mean]
  · have hpos := List.length_pos_iff.mpr h0
    have hq : ((xs.length : ℚ) + 1) ≠ 0 := by positivity
    have hm : mean (xs ++ [x]) = (xs.length * mean xs + x) / (xs.length + 1) := by
      have : mean (xs ++ [x]) = (xs.sum + x) / (xs.length + 1) := by
        unfold mean
        simp
      rw [this, ← mean_mul xs]
      congr 1
      ring
    rw [if_neg (by omega), hs.M, hs.S]
    refine ⟨by simp, ?_, ?_⟩
    · simp only [lift2, Option.map_some]
      rw [hm]
      push_cast
      congr 1
      field_simp
      ring
    · simp only [lift2, Option.map_some]
      rw [sqdev_eq (xs ++ [x]), hm, sqdev_eq xs, sumsq_append, List.length_append]
      push_cast
      have : sumsq [x] = x * x := by simp [sumsq]
      rw [this]
      congr 1
      simp only [List.length_singleton, Nat.cast_one]
      field_simp
      ring


/-! ### Filters -/

/-- The filter (a new one if missing) has the global observations `g` and the local observations `l`. -/
def FRep (f : Option Filter) (g l : List ℚ) : Prop := Rep (f.getD Filter.new).rs g ∧ Rep (f.getD Filter.new).rsLocal l

theorem FRep.acts {f : Option Filter} {g l : List ℚ} (h : FRep f g l) (xs : List ℚ) :
    FRep (xs.foldl act f) (g ++ xs) (l ++ xs) := by
  induction xs generalizing f g l with
  | nil => simpa using h
  | cons x xs ih =>
    have h' : FRep (act f x) (g ++ [x]) (l ++ [x]) := ⟨h.1.push x, h.2.push x⟩
    have := ih h'
    simpa using this

theorem acts_some {f : Option Filter} {xs : List ℚ} (h : f ≠ none ∨ xs ≠ []) : ∃ f', xs.foldl act f = some f' := by
  induction xs generalizing f with
  | nil =>
    rcases h with h | h
    · exact Option.ne_none_iff_exists'.mp h
    · exact absurd rfl h
  | cons x xs ih => exact ih (Or.inl (by simp [act]))

theorem collectAll_rep (gs : List (Option Filter)) (ys : List (List ℚ)) (f : Filter) (A : List ℚ) (hA : A ≠ [])
    (hf : Rep f.rs A) (hgs : List.Forall₂ (fun g y => ∃ g', g = some g' ∧ Rep g'.rsLocal y) gs ys) :
    ∃ f', collectAll f gs = .ok f' ∧ Rep f'.rs (A ++ ys.flatten) := by
  induction hgs generalizing f A with
  | nil => exact ⟨f, rfl, by simpa using hf⟩
  | @cons g y gs ys h _ ih =>
    obtain ⟨g', rfl, hg⟩ := h
    obtain ⟨f', h1, h2⟩ := ih (f.collect g') (A ++ y) (by simp [hA]) (hf.update hg (by simp [hA]))
    exact ⟨f', h1, by simpa using h2⟩

theorem collectAll_missing (f : Filter) (gs : List (Option Filter)) (h : none ∈ gs) : collectAll f gs = .error .key := by
  induction gs generalizing f with
  | nil => simp at h
  | cons g gs ih =>
    cases g with
    | none => rfl
    | some g =>
      simp at h
      exact ih _ h

/-- The filter after `update()`. -/
def Synced (sq : Option ℚ → Option ℚ) (G : List ℚ) (f : Filter) : Prop :=
  Rep f.rs G ∧ Rep f.rsLocal [] ∧ f.mean = .shared ∧ f.std = sq f.rs.var

theorem syncAll_rep (sq : Option ℚ → Option ℚ) (m : Filter) (G : List ℚ) (hm : Synced sq G m) (ws : List (Option Filter))
    (hws : ∀ w ∈ ws, w ≠ none) :
    ∃ ws' : List Filter, syncAll sq (some m) ws = .ok (ws'.map some) ∧ ws'.length = ws.length ∧ ∀ w ∈ ws', Synced sq G w := by
  induction ws with
  | nil => exact ⟨[], rfl, rfl, by simp⟩
  | cons w ws ih =>
    obtain ⟨ws', h1, h2, h3⟩ := ih (fun x hx => hws x (by simp [hx]))
    obtain ⟨f, rfl⟩ := Option.ne_none_iff_exists'.mp (hws w (by simp))
    refine ⟨((f.sync m).applyStats sq) :: ws', ?_, by simp [h2], ?_⟩
    · simp only [syncAll, workerSync, h1, List.map_cons]
    · intro x hx
      rcases List.mem_cons.mp hx with rfl | hx
      · exact ⟨hm.1, hm.2.1, rfl, rfl⟩
      · exact h3 x hx

theorem forall_zipWith (G : List ℚ) (members : List (Option Filter)) (obs : List (List ℚ)) (hlen : obs.length = members.length)
    (hm : ∀ m ∈ members, FRep m G []) (hk : List.Forall₂ (fun (m : Option Filter) (xs : List ℚ) => m ≠ none ∨ xs ≠ []) members obs) :
    List.Forall₂ (fun g y => ∃ g', g = some g' ∧ Rep g'.rsLocal y)
      (members.zipWith (fun f xs => xs.foldl act f) obs) obs := by
  induction hk with
  | nil => exact .nil
  | @cons m xs ms os h _ ih =>
    refine .cons ?_ (ih (by simpa using hlen) (fun x hx => hm x (by simp [hx])))
    obtain ⟨f', hf'⟩ := acts_some h
    have := (hm m (by simp)).acts xs
    rw [hf'] at this
    exact ⟨f', hf', by simpa using this.2⟩

theorem forall2_some {gs : List (Option Filter)} {ys : List (List ℚ)}
    (h : List.Forall₂ (fun g y => ∃ g' : Filter, g = some g' ∧ Rep g'.rsLocal y) gs ys) : ∀ g ∈ gs, g ≠ none := by
  induction h with
  | nil => simp
  | cons h _ ih =>
    obtain ⟨g', rfl, -⟩ := h
    intro g hg
    rcases List.mem_cons.mp hg with rfl | hg
    · simp
    · exact ih g hg

/-- The observations that end up in the statistic of the group after a round. -/
def counted (obs : List (List ℚ)) : List ℚ := obs.headD [] ++ obs.flatten

theorem round_spec (sq : Option ℚ → Option ℚ) (G : List ℚ) (members : List (Option Filter)) (obs : List (List ℚ))
    (hlen : obs.length = members.length) (hne : members ≠ []) (hm : ∀ m ∈ members, FRep m G [])
    (hk : List.Forall₂ (fun (m : Option Filter) (xs : List ℚ) => m ≠ none ∨ xs ≠ []) members obs)
    (hG : G ≠ [] ∨ obs.headD [] ≠ []) :
    ∃ fs : List Filter, round sq members obs = .ok (fs.map some) ∧ fs.length = members.length ∧
      ∀ f ∈ fs, Synced sq (G ++ counted obs) f := by
  have hall := forall_zipWith G members obs hlen hm hk
  unfold round updateFilters
  cases members with
  | nil => exact absurd rfl hne
  | cons m ms =>
    cases obs with
    | nil => simp at hlen
    | cons xs os =>
      rw [List.zipWith_cons_cons] at hall ⊢
      have hmx := (hm m (by simp)).acts xs
      cases hk with
      | cons hk0 hkr =>
        obtain ⟨f, hf⟩ := acts_some hk0
        rw [hf] at hall hmx
        have hA : G ++ xs ≠ [] := by
          rcases hG with h | h
          · simp [h]
          · have : xs ≠ [] := h
            simp [this]
        obtain ⟨f', c1, c2⟩ := collectAll_rep _ _ f (G ++ xs) hA hmx.1 hall
        have hs : Synced sq (G ++ counted (xs :: os)) (f'.applyStats sq).clearLocal := by
          refine ⟨?_, Rep.new, rfl, rfl⟩
          have : G ++ counted (xs :: os) = G ++ xs ++ (xs :: os).flatten := by simp [counted]
          rw [this]
          exact c2
        have hws : ∀ w ∈ ms.zipWith (fun f xs => xs.foldl act f) os, w ≠ none := by
          cases hall with
          | cons _ hr =>
            exact forall2_some hr
        obtain ⟨ws', w1, w2, w3⟩ := syncAll_rep sq _ _ hs _ hws
        refine ⟨(f'.applyStats sq).clearLocal :: ws', ?_, ?_, ?_⟩
        · simp only [hf, managerCollect, c1, List.tail_cons, w1, List.map_cons]
        · simp only [List.length_cons, w2, List.length_zipWith]
          simp at hlen
          omega
        · intro x hx
          rcases List.mem_cons.mp hx with rfl | hx
          · exact hs
          · exact w3 x hx

/-! ### Rollouts -/

theorem localRollouts_eq (R W w : Nat) : localRollouts R W w =
    List.range' (w * segmentLength R W) (min (segmentLength R W) (R - w * segmentLength R W)) := by
  unfold localRollouts localNum localMin
  have : (min (segmentLength R W : Int) ((R : Int) - ((w * segmentLength R W : Nat) : Int))).toNat =
      min (segmentLength R W) (R - w * segmentLength R W) := by
    omega
  rw [this, List.range'_eq_map_range]
  apply List.map_congr_left
  intro a _
  omega

theorem concat_rollouts (R W k : Nat) :
    (List.range k).flatMap (localRollouts R W) = List.range (min (k * segmentLength R W) R) := by
  induction k with
  | zero => simp
  | succ k ih =>
    rw [List.range_succ, List.flatMap_append, ih, List.flatMap_singleton, localRollouts_eq]
    generalize segmentLength R W = s
    have e : (k + 1) * s = k * s + s := Nat.succ_mul k s
    rw [e]
    generalize k * s = a
    rcases Nat.le_total R a with h | h
    · rw [show min a R = R by omega, show min s (R - a) = 0 by omega, show min (a + s) R = R by omega]
      simp
    · rw [show min a R = a by omega, List.range_eq_range', List.range_eq_range']
      have := List.range'_append_1 (s := 0) (m := a) (n := min s (R - a))
      rw [Nat.zero_add] at this
      rw [this]
      congr 1
      omega

end Machin.Ars
