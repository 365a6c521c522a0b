import Verif.Update.Model
import Mathlib.Algebra.Order.Archimedean.Basic
import Mathlib.Algebra.Order.Field.Basic
import Mathlib.Algebra.BigOperators.Group.Finset.Basic
import Mathlib.Algebra.BigOperators.Ring.Finset
import Mathlib.Tactic.Ring
import Mathlib.Tactic.Linarith
import Mathlib.Tactic.FieldSimp

/-! # Property C193: a softly updated target network tracks the online network -/

namespace Machin.Update

theorem zipInto_at {R : Type} (f : R → R → R) (ts ss : List R) (i : Nat) (t s : R) (ht : ts[i]? = some t) (hs : ss[i]? = some s) :
    (zipInto f ts ss)[i]? = some (f t s) := by
  induction ts generalizing ss i with
  | nil => simp at ht
  | cons a ts ih =>
    cases ss with
    | nil => simp at hs
    | cons b ss =>
      cases i with
      | zero => simp at ht hs; simp [zipInto, ht, hs]
      | succ i => simp at ht hs; simp [zipInto, ih ss i ht hs]

/-- One update of a framework with a target network and an update rate. -/
theorem update_soft {R : Type} [CommRing R] (f : Frame R) (tau : R) (hm : f.mode ≠ .vanilla) (hr : f.rate = some tau) (q : Net R) :
    update f q true = ({ f with online := q, target := softUpdate f.target q tau }, .ok ()) := by
  unfold update
  cases h : f.mode with
  | vanilla => exact absurd h hm
  | fixedTarget => simp [hr]
  | double => simp [hr]

/-- Parameter `i` of a softly updated target is the exponential moving average of the online parameters. -/
theorem updates_average {R : Type} [CommRing R] (i : Nat) (tau : R) (qs : List (Net R)) (ss : List R) (f : Frame R) (t : R) (hm : f.mode ≠ .vanilla)
    (hr : f.rate = some tau) (ht : f.target.params[i]? = some t) (hq : qs.map (fun q => q.params[i]?) = ss.map some) :
    ∃ f', updates f qs = (f', .ok ()) ∧ f'.target.params[i]? =
      some ((1 - tau) ^ ss.length * t + tau * ∑ j ∈ Finset.range ss.length, (1 - tau) ^ (ss.length - 1 - j) * (ss[j]?).getD 0) := by
  induction qs generalizing ss f t with
  | nil =>
    cases ss with
    | nil => exact ⟨f, rfl, by simpa using ht⟩
    | cons _ _ => simp at hq
  | cons q qs ih =>
    cases ss with
    | nil => simp at hq
    | cons s ss =>
      simp only [List.map_cons, List.cons.injEq] at hq
      have hu := update_soft f tau hm hr q
      have ht' : ({ f with online := q, target := softUpdate f.target q tau } : Frame R).target.params[i]? = some (t * (1 - tau) + s * tau) := by
        show (softUpdate f.target q tau).params[i]? = _
        unfold softUpdate
        exact zipInto_at _ _ _ _ _ _ ht hq.1
      obtain ⟨f', h1, h2⟩ := ih ss { f with online := q, target := softUpdate f.target q tau } _ hm hr ht' hq.2
      refine ⟨f', by simp only [updates, hu]; exact h1, ?_⟩
      rw [h2]
      congr 1
      rw [List.length_cons, Finset.sum_range_succ' _ ss.length]
      have : ∀ j ∈ Finset.range ss.length, (1 - tau) ^ (ss.length + 1 - 1 - (j + 1)) * ((s :: ss)[j + 1]?).getD 0 =
          (1 - tau) ^ (ss.length - 1 - j) * (ss[j]?).getD 0 := by
        intro j _
        rw [List.getElem?_cons_succ, show ss.length + 1 - 1 - (j + 1) = ss.length - 1 - j by omega]
      rw [Finset.sum_congr rfl this, List.getElem?_cons_zero, Option.getD_some, show ss.length + 1 - 1 - 0 = ss.length by omega, pow_succ]
      ring

/-- C193. Training a framework with a target network and `update_rate = tau` never raises, and after training every parameter of the target is the moving
average `(1 - tau)^k p_0 + tau * Σ (1 - tau)^(k-1-j) p_(j+1)` of the online parameters `p_1, …, p_k` from the initial one. -/
theorem C193_average {R : Type} [CommRing R] (mode : Mode) (tau : R) (q qt : Net R) (hm : mode ≠ .vanilla) (f : Frame R)
    (hf : Frame.new mode (some tau) none q qt = .ok f) (qs : List (Net R)) (i : Nat) (p0 : R) (ps : List R) (hp0 : qt.params[i]? = some p0)
    (hps : qs.map (fun q => q.params[i]?) = ps.map some) :
    ∃ f', updates f qs = (f', .ok ()) ∧ f'.target.params[i]? =
      some ((1 - tau) ^ ps.length * p0 + tau * ∑ j ∈ Finset.range ps.length, (1 - tau) ^ (ps.length - 1 - j) * (ps[j]?).getD 0) := by
  unfold Frame.new at hf
  simp only [Option.isSome_some, Option.isSome_none, Bool.false_eq_true, and_false, if_false, hm, Except.ok.injEq] at hf
  subst hf
  exact updates_average i tau qs ps _ p0 hm rfl hp0 hps

variable {K : Type} [Field K] [LinearOrder K] [IsStrictOrderedRing K]

theorem updates_lag (i : Nat) (tau d : K) (h0 : 0 < tau) (h1 : tau ≤ 1) (qs : List (Net K)) (f : Frame K) (t s : K) (hm : f.mode ≠ .vanilla)
    (hr : f.rate = some tau) (ht : f.target.params[i]? = some t) (hs : f.online.params[i]? = some s)
    (hstep : ∀ j a b, (f.online :: qs)[j]? = some a → (f.online :: qs)[j + 1]? = some b →
      ∃ x y, a.params[i]? = some x ∧ b.params[i]? = some y ∧ |y - x| ≤ d) :
    ∃ f' t' s', updates f qs = (f', .ok ()) ∧ f'.target.params[i]? = some t' ∧ f'.online.params[i]? = some s' ∧
      f'.online = ((f.online :: qs).getLast?).getD f.online ∧
      |t' - s'| ≤ (1 - tau) ^ qs.length * |t - s| + (1 - (1 - tau) ^ qs.length) * (d * (1 - tau) / tau) := by
  induction qs generalizing f t s with
  | nil => exact ⟨f, t, s, rfl, ht, hs, rfl, by simp⟩
  | cons q qs ih =>
    obtain ⟨x, y, hx, hy, hxy⟩ := hstep 0 f.online q rfl rfl
    rw [hs] at hx
    simp only [Option.some.injEq] at hx
    subst hx
    have hu := update_soft f tau hm hr q
    have ht' : ({ f with online := q, target := softUpdate f.target q tau } : Frame K).target.params[i]? = some (t * (1 - tau) + y * tau) := by
      show (softUpdate f.target q tau).params[i]? = _
      unfold softUpdate
      exact zipInto_at _ _ _ _ _ _ ht hy
    obtain ⟨f', t', s', e1, e2, e3, e4, e5⟩ := ih { f with online := q, target := softUpdate f.target q tau } _ y hm hr ht' hy
      (fun j a b ha hb => hstep (j + 1) a b ha hb)
    refine ⟨f', t', s', by simp only [updates, hu]; exact e1, e2, e3, ?_, ?_⟩
    · rw [e4]
      simp only [List.getLast?_cons_cons]
      cases hq : (q :: qs).getLast? with
      | none => simp at hq
      | some l => rfl
    · have hnn : 0 ≤ 1 - tau := by linarith
      have hstep1 : |t * (1 - tau) + y * tau - y| ≤ (1 - tau) * (|t - s| + d) := by
        rw [show t * (1 - tau) + y * tau - y = (1 - tau) * ((t - s) - (y - s)) by ring, abs_mul, abs_of_nonneg hnn]
        apply mul_le_mul_of_nonneg_left _ hnn
        calc |(t - s) - (y - s)| ≤ |t - s| + |y - s| := abs_sub _ _
          _ ≤ |t - s| + d := by linarith
      have hpow : 0 ≤ (1 - tau) ^ qs.length := pow_nonneg hnn _
      have := mul_le_mul_of_nonneg_left hstep1 hpow
      calc |t' - s'| ≤ (1 - tau) ^ qs.length * |t * (1 - tau) + y * tau - y| + (1 - (1 - tau) ^ qs.length) * (d * (1 - tau) / tau) := e5
        _ ≤ (1 - tau) ^ qs.length * ((1 - tau) * (|t - s| + d)) + (1 - (1 - tau) ^ qs.length) * (d * (1 - tau) / tau) := by linarith
        _ = (1 - tau) ^ (q :: qs).length * |t - s| + (1 - (1 - tau) ^ (q :: qs).length) * (d * (1 - tau) / tau) := by
          rw [List.length_cons, pow_succ]
          have : tau ≠ 0 := ne_of_gt h0
          field_simp
          ring

/-- C193. If no update changes the online parameter by more than `d`, the target is never further from it than `d (1 - tau) / tau`. -/
theorem C193_lag (mode : Mode) (tau d : K) (h0 : 0 < tau) (h1 : tau ≤ 1) (hd : 0 ≤ d) (q qt : Net K) (hm : mode ≠ .vanilla) (f : Frame K)
    (hf : Frame.new mode (some tau) none q qt = .ok f) (qs : List (Net K)) (i : Nat) (x0 s : K) (hq0 : q.params[i]? = some x0)
    (ht : qt.params[i]? = some s)
    (hstep : ∀ j a b, (f.online :: qs)[j]? = some a → (f.online :: qs)[j + 1]? = some b →
      ∃ x y, a.params[i]? = some x ∧ b.params[i]? = some y ∧ |y - x| ≤ d) :
    ∃ f' t' s', updates f qs = (f', .ok ()) ∧ f'.target.params[i]? = some t' ∧ f'.online.params[i]? = some s' ∧ |t' - s'| ≤ d * (1 - tau) / tau := by
  unfold Frame.new at hf
  simp only [Option.isSome_some, Option.isSome_none, Bool.false_eq_true, and_false, if_false, hm, Except.ok.injEq] at hf
  subst hf
  obtain ⟨f', t', s', e1, e2, e3, -, e5⟩ := updates_lag i tau d h0 h1 qs _ s s hm rfl ht (zipInto_at _ _ _ _ _ _ hq0 ht) hstep
  refine ⟨f', t', s', e1, e2, e3, ?_⟩
  rw [sub_self, abs_zero, mul_zero, zero_add] at e5
  have hnn : 0 ≤ 1 - tau := by linarith
  have hb : 0 ≤ d * (1 - tau) / tau := div_nonneg (mul_nonneg hd hnn) h0.le
  have hpow : 0 ≤ (1 - tau) ^ qs.length := pow_nonneg hnn _
  nlinarith

/-- C193. When the online network has stopped changing, the target comes as near to it as one likes and stays there. -/
theorem C193_converges [Archimedean K] (tau : K) (h0 : 0 < tau) (h1 : tau ≤ 1) (f : Frame K) (hm : f.mode ≠ .vanilla) (hr : f.rate = some tau) (i : Nat)
    (t s : K) (ht : f.target.params[i]? = some t) (hs : f.online.params[i]? = some s) (eps : K) (he : 0 < eps) :
    ∃ n0, ∀ n, n0 ≤ n → ∃ f' t', updates f (List.replicate n f.online) = (f', .ok ()) ∧ f'.target.params[i]? = some t' ∧ |t' - s| < eps := by
  have hnn : 0 ≤ 1 - tau := by linarith
  have hpos : 0 < |t - s| + 1 := by positivity
  obtain ⟨n0, hn0⟩ := exists_pow_lt_of_lt_one (div_pos he hpos) (show 1 - tau < 1 by linarith)
  refine ⟨n0, ?_⟩
  intro n hn
  obtain ⟨f', t', s', e1, e2, e3, e4, e5⟩ := updates_lag i tau 0 h0 h1 (List.replicate n f.online) f t s hm hr ht hs (by
    intro j a b ha hb
    have hrep : f.online :: List.replicate n f.online = List.replicate (n + 1) f.online := rfl
    rw [hrep] at ha hb
    have ha' := List.eq_of_mem_replicate (List.mem_of_getElem? ha)
    have hb' := List.eq_of_mem_replicate (List.mem_of_getElem? hb)
    subst ha'; subst hb'
    exact ⟨s, s, hs, hs, by simp⟩)
  refine ⟨f', t', e1, e2, ?_⟩
  have hon : f'.online = f.online := by
    rw [e4, show f.online :: List.replicate n f.online = List.replicate (n + 1) f.online from rfl, List.getLast?_replicate]
    simp
  rw [hon, hs] at e3
  simp only [Option.some.injEq] at e3
  subst e3
  rw [List.length_replicate] at e5
  simp only [zero_mul, zero_div, mul_zero, add_zero] at e5
  have hle : (1 - tau) ^ n ≤ (1 - tau) ^ n0 := pow_le_pow_of_le_one hnn (by linarith) hn
  have hlt : (1 - tau) ^ n * (|t - s| + 1) < eps := by
    rw [lt_div_iff₀ hpos] at hn0
    exact lt_of_le_of_lt (mul_le_mul_of_nonneg_right hle hpos.le) hn0
  have : 0 ≤ (1 - tau) ^ n := pow_nonneg hnn _
  nlinarith

/-- Non-vacuity: three updates with rate 1/2 from 8. -/
example : (do let f ← Frame.new Mode.double (some (1 / 2 : Rat)) none ⟨[0], []⟩ ⟨[8], []⟩
              pure ((updates f [⟨[4], []⟩, ⟨[6], []⟩, ⟨[2], []⟩]).1.target.params)) = .ok [4] := by decide +kernel

example : (1 - 1 / 2 : Rat) ^ 3 * 8 + 1 / 2 * ∑ j ∈ Finset.range 3, (1 - 1 / 2 : Rat) ^ (3 - 1 - j) * (([4, 6, 2] : List Rat)[j]?).getD 0 = 4 := by
  decide +kernel

end Machin.Update
