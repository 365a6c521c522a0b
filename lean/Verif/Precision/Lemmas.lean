import Verif.Precision.Model
import Verif.Prio.RoundDouble
import Verif.Project.RoundLemmas

/-! # Lemmas on updates, bias correction and uniform noise in floating point -/

namespace Machin.Precision

open Machin.Prio Machin.Prio.Spec Machin.Project Machin.Project.Spec
open Machin.Update (Net zipInto)

/-- The error relative to the exact value. -/
theorem fl_err {fl : ℚ → ℚ} {u : ℚ} (hr : Rounding fl u) (hu : 0 ≤ u) (h1 : u ≤ 1 / 100) (x : ℚ) : |fl x - x| ≤ 51 / 50 * u * |x| := by
  have h := hr.err x
  have h2 : |fl x| ≤ |fl x - x| + |x| := by
    have := abs_add_le (fl x - x) x
    rwa [sub_add_cancel] at this
  have h3 : |fl x| ≤ 51 / 50 * |x| := by
    have := mul_le_mul_of_nonneg_right h1 (abs_nonneg (fl x))
    have := abs_nonneg x
    linarith
  have := mul_le_mul_of_nonneg_left h3 hu
  linarith

/-! ### Soft updates -/

variable {d f : ℚ → ℚ} {v u : ℚ}

/-- The two factors. -/
theorem factor_bounds (ha : Arith d f v u) {rate : ℚ} (h0 : 0 ≤ rate) (h1 : rate ≤ 1) :
    0 ≤ f (d (1 - rate)) ∧ f (d (1 - rate)) ≤ (1 + 21 / 10 * u) * (1 - rate) ∧ 0 ≤ f rate ∧ f rate ≤ 102 / 100 ∧
    |f (d (1 - rate)) + f rate - 1| ≤ 21 / 10 * u := by
  have hu0 : 0 ≤ u := le_trans ha.pos ha.le
  have hv1 : v ≤ 1 / 100 := le_trans ha.le ha.small
  have hr : 0 ≤ 1 - rate := by linarith
  have e1 := fl_err ha.py ha.pos hv1 (1 - rate)
  have n1 := fl_nonneg ha.py hr
  have e2 := fl_err ha.el hu0 ha.small (d (1 - rate))
  have n2 := fl_nonneg ha.el n1
  have e3 := fl_err ha.el hu0 ha.small rate
  have n3 := fl_nonneg ha.el h0
  rw [abs_of_nonneg hr] at e1
  rw [abs_of_nonneg n1] at e2
  rw [abs_of_nonneg h0] at e3
  have hu1 := ha.small
  have hvu := ha.le
  have hv0 := ha.pos
  generalize d (1 - rate) = D at *
  generalize f D = a at *
  generalize f rate = b at *
  generalize hq : 1 - rate = q at *
  obtain ⟨l1, r1⟩ := abs_le.1 e1
  obtain ⟨l2, r2⟩ := abs_le.1 e2
  obtain ⟨l3, r3⟩ := abs_le.1 e3
  have vq : v * q ≤ u * q := mul_le_mul_of_nonneg_right hvu hr
  have hD : D ≤ (1 + 51 / 50 * u) * q := by linarith
  have uD : u * D ≤ u * ((1 + 51 / 50 * u) * q) := mul_le_mul_of_nonneg_left hD hu0
  have uuq : u * (u * q) ≤ 1 / 100 * (u * q) := mul_le_mul_of_nonneg_right hu1 (mul_nonneg hu0 hr)
  have hdev : |a - q| ≤ 21 / 10 * (u * q) := by
    rw [abs_le]
    have uq := mul_nonneg hu0 hr
    constructor <;> nlinarith
  obtain ⟨l4, r4⟩ := abs_le.1 hdev
  have ur := mul_nonneg hu0 h0
  have uq := mul_nonneg hu0 hr
  have usum : u * q + u * rate = u := by rw [← mul_add, ← hq]; ring
  refine ⟨n2, by linarith, n3, ?_, ?_⟩
  · have : u * rate ≤ 1 / 100 := by nlinarith
    linarith
  · rw [abs_le]
    constructor <;> linarith

/-- One soft update of one number. -/
theorem softF_near (ha : Arith d f v u) {rate : ℚ} (h0 : 0 ≤ rate) (h1 : rate ≤ 1) (t s : ℚ) :
    |softF d f rate t s - s| ≤ (1 - rate + 5 * u) * |t - s| + 5 * u * |s| := by
  have hu0 : 0 ≤ u := le_trans ha.pos ha.le
  have hu1 := ha.small
  obtain ⟨a0, a1, b0, b1, ab⟩ := factor_bounds ha h0 h1
  unfold softF
  generalize f (d (1 - rate)) = a at *
  generalize f rate = b at *
  have e1 := fl_err ha.el hu0 hu1 (t * a)
  have e2 := fl_err ha.el hu0 hu1 (s * b)
  generalize f (t * a) = P1 at *
  generalize f (s * b) = P2 at *
  have e3 := fl_err ha.el hu0 hu1 (P1 + P2)
  generalize f (P1 + P2) = y at *
  rw [abs_mul, abs_of_nonneg a0] at e1
  rw [abs_mul, abs_of_nonneg b0] at e2
  have ht : |t| ≤ |s| + |t - s| := by
    have := abs_add_le s (t - s)
    rwa [add_sub_cancel] at this
  have s0 := abs_nonneg s
  have ε0 := abs_nonneg (t - s)
  -- the sum of the products
  have hS : |t| * a + |s| * b ≤ 1021 / 1000 * |s| + |t - s| * a := by
    have h := (abs_le.1 ab).2
    have hab : a + b ≤ 1021 / 1000 := by linarith
    have := mul_le_mul_of_nonneg_left hab s0
    have := mul_le_mul_of_nonneg_right ht a0
    linarith
  have S0 : 0 ≤ |t| * a + |s| * b := add_nonneg (mul_nonneg (abs_nonneg t) a0) (mul_nonneg s0 b0)
  have hP : |P1 + P2| ≤ 1011 / 1000 * (|t| * a + |s| * b) := by
    have q1 : |P1| ≤ |P1 - t * a| + |t| * a := by
      have := abs_add_le (P1 - t * a) (t * a)
      rw [sub_add_cancel, abs_mul, abs_of_nonneg a0] at this
      exact this
    have q2 : |P2| ≤ |P2 - s * b| + |s| * b := by
      have := abs_add_le (P2 - s * b) (s * b)
      rw [sub_add_cancel, abs_mul, abs_of_nonneg b0] at this
      exact this
    have := abs_add_le P1 P2
    have m1 := mul_le_mul_of_nonneg_right hu1 (mul_nonneg (abs_nonneg t) a0)
    have m2 := mul_le_mul_of_nonneg_right hu1 (mul_nonneg s0 b0)
    linarith
  have uP := mul_le_mul_of_nonneg_left hP hu0
  have uS := mul_le_mul_of_nonneg_left hS hu0
  -- the exact combination
  have hE : |t * a + s * b - s| ≤ |t - s| * a + 21 / 10 * u * |s| := by
    have e : t * a + s * b - s = (t - s) * a + s * (a + b - 1) := by ring
    rw [e]
    refine le_trans (abs_add_le _ _) ?_
    rw [abs_mul, abs_mul, abs_of_nonneg a0]
    have := mul_le_mul_of_nonneg_left ab s0
    linarith
  have hsum : |y - s| ≤ |y - (P1 + P2)| + |P1 - t * a| + |P2 - s * b| + |t * a + s * b - s| := by
    have e : y - s = (y - (P1 + P2)) + (P1 - t * a) + (P2 - s * b) + (t * a + s * b - s) := by ring
    rw [e]
    refine le_trans (abs_add_le _ _) (add_le_add_left (le_trans (abs_add_le _ _) (add_le_add_left (abs_add_le _ _) _)) _)
  -- `a (1 + 2.06 u) ≤ 1 - rate + 5 u`
  have hA : a * (1 + 206 / 100 * u) ≤ 1 - rate + 5 * u := by
    have r0 : 0 ≤ 1 - rate := by linarith
    have p : 0 ≤ 1 + 206 / 100 * u := by linarith
    have m := mul_le_mul_of_nonneg_right a1 p
    have k : (1 + 21 / 10 * u) * (1 - rate) * (1 + 206 / 100 * u) ≤ (1 - rate) * (1 + 5 * u) := by
      have : (1 + 21 / 10 * u) * (1 + 206 / 100 * u) ≤ 1 + 5 * u := by nlinarith
      have := mul_le_mul_of_nonneg_left this r0
      linarith
    have l : (1 - rate) * (1 + 5 * u) ≤ 1 - rate + 5 * u := by nlinarith
    linarith
  have hA' := mul_le_mul_of_nonneg_left hA ε0
  have us := mul_nonneg hu0 s0
  nlinarith

theorem zipInto_get {R : Type} (g : R → R → R) : ∀ (ts ss : List R) (i : Nat) (x y : R), ts[i]? = some x → ss[i]? = some y →
    (zipInto g ts ss)[i]? = some (g x y)
  | [], _, _, _, _, h, _ => by simp at h
  | _ :: _, [], _, _, _, _, h => by simp at h
  | t :: ts, s :: ss, 0, x, y, h1, h2 => by simp_all [zipInto]
  | t :: ts, s :: ss, i + 1, x, y, h1, h2 => by
    simp only [zipInto, List.getElem?_cons_succ] at *
    exact zipInto_get g ts ss i x y h1 h2

/-- Repeated soft updates of one number. -/
def softIter (d f : ℚ → ℚ) (rate s : ℚ) : Nat → ℚ → ℚ
  | 0, t => t
  | k + 1, t => softF d f rate (softIter d f rate s k t) s

theorem softRunF_get (d f : ℚ → ℚ) (source : Net ℚ) (rate : ℚ) (target : Net ℚ) (i : Nat) (x y : ℚ) (hx : target.params[i]? = some x)
    (hy : source.params[i]? = some y) : ∀ k, (softRunF d f source rate k target).params[i]? = some (softIter d f rate y k x)
  | 0 => hx
  | k + 1 => zipInto_get _ _ _ i _ _ (softRunF_get d f source rate target i x y hx hy k) hy

theorem softRunF_buffers (d f : ℚ → ℚ) (source : Net ℚ) (rate : ℚ) (target : Net ℚ) : ∀ k, (softRunF d f source rate k target).buffers = target.buffers
  | 0 => rfl
  | k + 1 => softRunF_buffers d f source rate target k

theorem softIter_near (ha : Arith d f v u) {rate : ℚ} (h1 : rate ≤ 1) (hr : 5 * u < rate) (t s : ℚ) : ∀ k : Nat,
    |softIter d f rate s k t - s| ≤ (1 - rate + 5 * u) ^ k * |t - s| + 5 * u * |s| / (rate - 5 * u)
  | 0 => by
    have hu0 : 0 ≤ u := le_trans ha.pos ha.le
    have : 0 ≤ 5 * u * |s| / (rate - 5 * u) := div_nonneg (mul_nonneg (by linarith) (abs_nonneg s)) (by linarith)
    simp only [softIter, pow_zero]
    linarith
  | k + 1 => by
    have hu0 : 0 ≤ u := le_trans ha.pos ha.le
    have ih := softIter_near ha h1 hr t s k
    have st := softF_near ha (by linarith : 0 ≤ rate) h1 (softIter d f rate s k t) s
    have q0 : 0 ≤ 1 - rate + 5 * u := by linarith
    have m := mul_le_mul_of_nonneg_left ih q0
    have hL : 5 * u * |s| = (rate - 5 * u) * (5 * u * |s| / (rate - 5 * u)) := by
      have : rate - 5 * u ≠ 0 := by linarith
      field_simp
    show |softF d f rate (softIter d f rate s k t) s - s| ≤ _
    rw [pow_succ]
    generalize 5 * u * |s| / (rate - 5 * u) = L at *
    rw [hL] at st
    nlinarith

/-! ### Uniform noise -/

/-- A number below 1 times a positive number with `p` digits is rounded to a smaller number. -/
theorem shrink {p : Nat} (hp : 1 ≤ p) {y r : ℚ} (hy : 0 < y) (hfix : toNearest p y = y) (hr : r ≤ 1 - 1 / 2 ^ p) : toNearest p (r * y) < y := by
  have hR := toNearest_rounding hp
  have hle : r * y ≤ (1 - 1 / 2 ^ p) * y := mul_le_mul_of_nonneg_right hr hy.le
  refine lt_of_le_of_lt (hR.mono _ _ hle) ?_
  have h2p : (0 : ℚ) < 1 / 2 ^ p := by positivity
  have hp1 : (1 : ℚ) / 2 ^ p ≤ 1 / 2 := by
    apply one_div_le_one_div_of_le (by norm_num)
    calc (2 : ℚ) = 2 ^ 1 := by norm_num
      _ ≤ 2 ^ p := pow_le_pow_right₀ (by norm_num) hp
  have hx : 0 < (1 - 1 / 2 ^ p) * y := mul_pos (by linarith) hy
  have hxy : (1 - 1 / 2 ^ p) * y < y := by nlinarith
  have hle2 : toNearest p ((1 - 1 / 2 ^ p) * y) ≤ y := by
    have := hR.mono _ _ hxy.le
    rwa [hfix] at this
  refine lt_of_le_of_ne hle2 ?_
  intro heq
  rw [toNearest_pos hx] at heq
  obtain ⟨-, -, -, -, herr⟩ := nearest_form hp hx
  rw [heq] at herr
  have hsub : y - (1 - 1 / 2 ^ p) * y = 1 / 2 ^ p * y := by ring
  rw [hsub, abs_of_pos (mul_pos h2p hy)] at herr
  have hz : (2 : ℚ) ^ (expo ((1 - 1 / 2 ^ p) * y) - p) = 2 ^ expo ((1 - 1 / 2 ^ p) * y) * (1 / 2 ^ p) := by
    rw [zpow_sub₀ (by norm_num), zpow_natCast]
    ring
  rw [hz, mul_comm] at herr
  have h3 := le_of_mul_le_mul_right herr h2p
  have h4 := (expo_spec hx).1
  linarith

theorem uniformF_upper {p : Nat} (hp : 1 ≤ p) {f : ℚ → ℚ} (hf : f = toNearest p) (hd : Rounding d v) (hdf : ∀ x, d (f x) = f x) {lo hi r : ℚ} (hlt : lo ≤ hi) (hlo : f lo = lo)
    (hhi : f hi = hi) (h0 : 0 ≤ r) (h1 : r ≤ 1 - 1 / 2 ^ p) : lo ≤ uniformF d f lo hi r ∧ uniformF d f lo hi r ≤ hi := by
  have hR : Rounding f (1 / 2 ^ p) := hf ▸ toNearest_rounding hp
  have hW : 0 ≤ hi - lo := by linarith
  unfold uniformF
  rw [hlo]
  have hyn : 0 ≤ f (d (hi - lo)) := fl_nonneg hR (fl_nonneg hd hW)
  have hq : 0 ≤ f (r * f (d (hi - lo))) := fl_nonneg hR (mul_nonneg h0 hyn)
  have hqW : f (r * f (d (hi - lo))) ≤ hi - lo := by
    by_cases hc : f (d (hi - lo)) ≤ hi - lo
    · have hr1 : r ≤ 1 := le_trans h1 (by have : (0 : ℚ) < 1 / 2 ^ p := by positivity
                                          linarith)
      have := hR.mono _ _ (mul_le_of_le_one_left hyn hr1)
      rw [hR.idem] at this
      linarith
    · have hc := not_le.1 hc
      have hs : f (r * f (d (hi - lo))) < f (d (hi - lo)) := by
        rw [hf] at hc ⊢
        exact shrink hp (lt_of_le_of_lt hW hc) ((toNearest_rounding hp).idem _) h1
      by_contra hcon
      have hcon := (not_le.1 hcon).le
      have := hR.mono _ _ (hd.mono _ _ hcon)
      rw [hdf, hR.idem] at this
      linarith
  constructor
  · have := hR.mono lo (f (r * f (d (hi - lo))) + lo) (by linarith)
    rwa [hlo] at this
  · have := hR.mono (f (r * f (d (hi - lo))) + lo) hi (by linarith)
    rwa [hhi] at this

/-- A positive number with `p` digits has `q` digits for every larger `q`. -/
theorem nearest_nearest {p q : Nat} (hp : 1 ≤ p) (hpq : p < q) {x : ℚ} (hx : 0 < x) : nearest q (nearest p x) = nearest p x := by
  obtain ⟨r, hr, -⟩ := nearest_form hp hx
  have hpos := nearest_pos hp hx
  obtain ⟨-, hb⟩ := nearest_between hp hx
  have he : expo (nearest p x) ≤ expo x + 1 := by
    have h1 := (expo_spec hpos).1
    by_contra hc
    have h2 : expo x + 1 < expo (nearest p x) := not_le.1 hc
    have h3 : (2 : ℚ) ^ (expo x + 1) < 2 ^ expo (nearest p x) := zpow_lt_zpow_right₀ (by norm_num) h2
    linarith
  unfold nearest
  rw [pow2_eq]
  change (2 : ℚ) ^ (expo (nearest p x) - q + 1) * (roundEven (nearest p x / 2 ^ (expo (nearest p x) - q + 1)) : ℚ) = nearest p x
  have hk : ∃ k : Nat, expo x - p + 1 = expo (nearest p x) - q + 1 + (k : Int) := ⟨(expo x - p - expo (nearest p x) + q).toNat, by omega⟩
  obtain ⟨k, hk⟩ := hk
  have hdiv : nearest p x / 2 ^ (expo (nearest p x) - q + 1) = ((2 ^ k * r : Int) : ℚ) := by
    have h0 : (2 : ℚ) ^ (expo (nearest p x) - q + 1) ≠ 0 := (two_pos _).ne'
    rw [div_eq_iff h0]
    rw [hk, zpow_add₀ (by norm_num : (2 : ℚ) ≠ 0), zpow_natCast] at hr
    push_cast
    linarith
  rw [hdiv, roundEven_int, ← hdiv]
  have h0 : (2 : ℚ) ^ (expo (nearest p x) - q + 1) ≠ 0 := (two_pos _).ne'
  field_simp

theorem toNearest_toNearest {p q : Nat} (hp : 1 ≤ p) (hpq : p < q) (x : ℚ) : toNearest q (toNearest p x) = toNearest p x := by
  rcases lt_trichotomy x 0 with h | h | h
  · have hn := nearest_pos hp (by linarith : 0 < -x)
    rw [toNearest_neg h, toNearest_neg (by linarith), neg_neg, nearest_nearest hp hpq (by linarith)]
  · subst h
    rfl
  · rw [toNearest_pos h, toNearest_pos (nearest_pos hp h), nearest_nearest hp hpq h]

/-! ### The exponent of the bias correction -/

theorem betaF_eq (hd : Rounding d v) (h1 : d 1 = 1) (inc beta : ℚ) : betaF d inc beta = d (min 1 (beta + inc)) := by
  unfold betaF
  rcases le_total 1 (beta + inc) with h | h
  · rw [min_eq_left h, min_eq_left (by have := hd.mono _ _ h; rwa [h1] at this), h1]
  · rw [min_eq_right h, min_eq_right (by have := hd.mono _ _ h; rwa [h1] at this)]

theorem betaRunF_fixed (hd : Rounding d v) (h1 : d 1 = 1) {inc beta : ℚ} (hb : d beta = beta) : ∀ k, d (betaRunF d inc k beta) = betaRunF d inc k beta
  | 0 => hb
  | k + 1 => by rw [betaRunF, betaF_eq hd h1, hd.idem]

theorem betaRunF_le {inc beta : ℚ} (h : beta ≤ 1) : ∀ k, betaRunF d inc k beta ≤ 1
  | 0 => h
  | _ + 1 => min_le_left _ _

theorem betaRunF_step (hd : Rounding d v) (h1 : d 1 = 1) {inc beta : ℚ} (hb : d beta = beta) (hi : 0 ≤ inc) (h : beta ≤ 1) (k : Nat) :
    betaRunF d inc k beta ≤ betaRunF d inc (k + 1) beta := by
  refine le_min (betaRunF_le h k) ?_
  have := hd.mono (betaRunF d inc k beta) (betaRunF d inc k beta + inc) (by linarith)
  rwa [betaRunF_fixed hd h1 hb] at this

theorem betaRunF_ge (hd : Rounding d v) (h1 : d 1 = 1) {inc beta : ℚ} (hb : d beta = beta) (hi : 0 ≤ inc) (h : beta ≤ 1) : ∀ k, beta ≤ betaRunF d inc k beta
  | 0 => le_refl _
  | k + 1 => le_trans (betaRunF_ge hd h1 hb hi h k) (betaRunF_step hd h1 hb hi h k)

/-- The error of one step. -/
theorem betaF_near (hd : Rounding d v) (h1 : d 1 = 1) (hv : 0 ≤ v) {inc beta : ℚ} (h0 : 0 ≤ beta) (hi : 0 ≤ inc) :
    |betaF d inc beta - min 1 (beta + inc)| ≤ v := by
  rw [betaF_eq hd h1]
  have h := hd.err (min 1 (beta + inc))
  have hm0 : 0 ≤ min 1 (beta + inc) := le_min (by norm_num) (by linarith)
  have hm1 := hd.mono _ _ (min_le_left 1 (beta + inc))
  rw [h1] at hm1
  have h2 : |d (min 1 (beta + inc))| ≤ 1 := by rw [abs_of_nonneg (fl_nonneg hd hm0)]; exact hm1
  have := mul_le_mul_of_nonneg_left h2 hv
  linarith

theorem min_one_lip (a b c : ℚ) (hc : 0 ≤ c) : |min 1 (a + c) - min 1 (b + c)| ≤ |a - min 1 b| ∨ 1 < b := by
  rcases le_or_gt b 1 with hb | hb
  · left
    rw [min_eq_right hb]
    rcases le_total 1 (a + c) with h | h <;> rcases le_total 1 (b + c) with h' | h' <;> simp only [min_eq_left, min_eq_right, h, h'] <;>
      rcases abs_cases (a - b) with ⟨e, _⟩ | ⟨e, _⟩ <;> rw [e, abs_le] <;> constructor <;> linarith
  · exact Or.inr hb

theorem betaRunF_near (hd : Rounding d v) (h1 : d 1 = 1) (hv : 0 ≤ v) {inc beta : ℚ} (hb : d beta = beta) (h0 : 0 ≤ beta) (hi : 0 ≤ inc) (h : beta ≤ 1) :
    ∀ k : Nat, |betaRunF d inc k beta - min 1 (beta + k * inc)| ≤ k * v
  | 0 => by simp [betaRunF, min_eq_right h]
  | k + 1 => by
    have ih := betaRunF_near hd h1 hv hb h0 hi h k
    have hk0 : 0 ≤ betaRunF d inc k beta := le_trans h0 (betaRunF_ge hd h1 hb hi h k)
    have st := betaF_near hd h1 hv hk0 hi
    have hlip : |min 1 (betaRunF d inc k beta + inc) - min 1 (beta + (k + 1) * inc)| ≤ |betaRunF d inc k beta - min 1 (beta + k * inc)| := by
      rw [show beta + ((k : ℚ) + 1) * inc = (beta + k * inc) + inc by ring]
      generalize hB : beta + (k : ℚ) * inc = B
      generalize hA : betaRunF d inc k beta = A
      have hA1 : A ≤ 1 := hA ▸ betaRunF_le h k
      rcases min_one_lip A B inc hi with hl | hl
      · exact hl
      · rw [min_eq_left hl.le, min_eq_left (by linarith : 1 ≤ B + inc)]
        rcases le_total 1 (A + inc) with h' | h'
        · rw [min_eq_left h', sub_self, abs_zero]
          exact abs_nonneg _
        · rw [min_eq_right h', abs_of_nonpos (by linarith), abs_of_nonpos (by linarith)]
          linarith
    have tri := abs_sub_le (betaRunF d inc (k + 1) beta) (min 1 (betaRunF d inc k beta + inc)) (min 1 (beta + ((k : ℚ) + 1) * inc))
    have st' : |betaRunF d inc (k + 1) beta - min 1 (betaRunF d inc k beta + inc)| ≤ v := st
    push_cast
    linarith

theorem betaRunF_grow (hd : Rounding d v) (h1 : d 1 = 1) (hv : 0 ≤ v) {inc beta : ℚ} (hb : d beta = beta) (h0 : 0 ≤ beta) (hi : v ≤ inc) (h : beta ≤ 1) :
    ∀ k : Nat, betaRunF d inc k beta = 1 ∨ beta + k * (inc - v) ≤ betaRunF d inc k beta
  | 0 => Or.inr (by simp [betaRunF])
  | k + 1 => by
    have hi0 : 0 ≤ inc := le_trans hv hi
    have mono := betaRunF_step hd h1 hb hi0 h k
    have le1 := betaRunF_le (d := d) (inc := inc) h (k + 1)
    rcases betaRunF_grow hd h1 hv hb h0 hi h k with e | e
    · left
      rw [e] at mono
      exact le_antisymm le1 mono
    · have hk0 : 0 ≤ betaRunF d inc k beta := le_trans h0 (betaRunF_ge hd h1 hb hi0 h k)
      have st := (abs_le.1 (betaF_near hd h1 hv hk0 hi0)).1
      rcases le_total 1 (betaRunF d inc k beta + inc) with h' | h'
      · left
        show betaF d inc _ = 1
        rw [betaF_eq hd h1, min_eq_left h', h1]
      · right
        rw [min_eq_right h'] at st
        have st' : -v ≤ betaRunF d inc (k + 1) beta - (betaRunF d inc k beta + inc) := st
        push_cast
        linarith

/-! ### Importance weights -/

theorem foldl_max_spec : ∀ (xs : List ℚ) (x : ℚ), (xs.foldl max x = x ∨ xs.foldl max x ∈ xs) ∧ x ≤ xs.foldl max x ∧ ∀ y ∈ xs, y ≤ xs.foldl max x
  | [], x => ⟨Or.inl rfl, le_refl _, by simp⟩
  | z :: zs, x => by
    obtain ⟨h1, h2, h3⟩ := foldl_max_spec zs (max x z)
    simp only [List.foldl_cons, List.mem_cons]
    refine ⟨?_, le_trans (le_max_left _ _) h2, ?_⟩
    · rcases h1 with h | h
      · rw [h]
        rcases max_choice x z with e | e
        · exact Or.inl e
        · exact Or.inr (Or.inl e)
      · exact Or.inr (Or.inr h)
    · rintro y (rfl | hy)
      · exact le_trans (le_max_right _ _) h2
      · exact h3 y hy

theorem maxOf_spec {xs : List ℚ} (h : xs ≠ []) : maxOf xs ∈ xs ∧ ∀ y ∈ xs, y ≤ maxOf xs := by
  cases xs with
  | nil => exact absurd rfl h
  | cons x xs =>
    obtain ⟨h1, h2, h3⟩ := foldl_max_spec xs x
    simp only [maxOf, List.mem_cons]
    refine ⟨h1, ?_⟩
    rintro y (rfl | hy)
    · exact h2
    · exact h3 y hy

theorem fl_positive (hd : Rounding d v) {x : ℚ} (hx : 0 < x) : 0 < d x := by
  rcases lt_or_eq_of_le (fl_nonneg hd hx.le) with h | h
  · exact h
  · have := hd.err x
    rw [← h] at this
    simp at this
    linarith

end Machin.Precision
