import Verif.Precision.OuLemmas
import Verif.Project.PropsRound

/-!
# C258: the Ornstein-Uhlenbeck generator in single precision

Rounding errors of the process do not add up: the distance from the exact process with the same draws stays bounded over all histories (`C258_error_partial`), the values stay in a band
around the mean (`C258_bounded_partial`), and from outside a narrow band the pull brings them closer (`C258_closer_partial`). Inside the band the pull is rounded away, so the process need
not come to its mean, nor forget its start (`C258_violated_forgets`).
-/

namespace Machin.Precision

open Machin.Noise Machin.Prio Machin.Prio.Spec Machin.Project

/-- The parameters and the state are numbers of single precision. -/
def SingleOu (g : Ou ℚ) : Prop :=
  single g.mu = g.mu ∧ single g.sigma = g.sigma ∧ single g.theta = g.theta ∧ single g.dt = g.dt ∧ single g.sqrtDt = g.sqrtDt ∧ single g.xPrev = g.xPrev

/-- C258 in full: a call without noise brings the value closer to the mean. -/
def C258_full : Prop :=
  ∀ g : Ou ℚ, SingleOu g → 0 < g.theta * g.dt → g.theta * g.dt ≤ 9 / 10 → g.xPrev ≠ g.mu → |(ouCallF single g 0).2 - g.mu| < |g.xPrev - g.mu|

/-- The default parameters but for the mean. -/
def usual (mu x : ℚ) : Ou ℚ := ⟨mu, 1, single (15 / 100), single (1 / 100), single (1 / 10), none, x⟩

theorem single_rounding : Rounding single (1 / 2 ^ 24) := C244_precisions.el

/-- A value that a call without noise keeps is kept for ever. -/
theorem C258_stuck (fl : ℚ → ℚ) (g : Ou ℚ) (h : (ouCallF fl g 0).2 = g.xPrev) (n : Nat) : (ouCallsF fl g (List.replicate n 0)).2 = List.replicate n g.xPrev := by
  induction n with
  | zero => rfl
  | succ n ih =>
    have hg : (ouCallF fl g 0).1 = g := by rw [callF_params, h]
    have : ouCallsF fl g (List.replicate (n + 1) 0) =
        ((ouCallsF fl (ouCallF fl g 0).1 (List.replicate n 0)).1, (ouCallF fl g 0).2 :: (ouCallsF fl (ouCallF fl g 0).1 (List.replicate n 0)).2) := rfl
    rw [this, hg, h, ih]
    rfl

/-- C258 is violated with the usual parameters and the mean 1: the next number above 1 is kept. -/
theorem C258_violated_near : SingleOu (usual 1 (1 + 1 / 2 ^ 23)) ∧ (ouCallF single (usual 1 (1 + 1 / 2 ^ 23)) 0).2 = 1 + 1 / 2 ^ 23 := by
  unfold SingleOu
  decide +kernel

/-- C258 is violated: two starts whose values never meet, however long the process runs without noise, where the exact process forgets its start. -/
theorem C258_violated_forgets (n : Nat) :
    (ouCallsF single (usual 1 (1 + 1 / 2 ^ 23)) (List.replicate n 0)).2 = List.replicate n (1 + 1 / 2 ^ 23) ∧
    (ouCallsF single (usual 1 1) (List.replicate n 0)).2 = List.replicate n 1 :=
  ⟨C258_stuck single _ C258_violated_near.2 n, C258_stuck single (usual 1 1) (by decide +kernel) n⟩

theorem C258_violated : ¬ C258_full := by
  intro h
  have h1 := h (usual 1 (1 + 1 / 2 ^ 23)) C258_violated_near.1 (by decide +kernel) (by decide +kernel) (by decide +kernel)
  rw [C258_violated_near.2] at h1
  exact lt_irrefl _ h1

/-- C258, what holds: a call without noise brings the value closer unless it is already within `6 u |mu| / (theta dt)` of the mean. -/
theorem C258_closer_partial {fl : ℚ → ℚ} {u : ℚ} (hr : Rounding fl u) (hu : 0 ≤ u) (h1 : u ≤ 1 / 100) (g : Ou ℚ) (hk : g.theta * g.dt ≤ 9 / 10)
    (hk' : 10 * u ≤ g.theta * g.dt) (hfar : 6 * u * |g.mu| < g.theta * g.dt * |g.xPrev - g.mu|) : |(ouCallF fl g 0).2 - g.mu| < |g.xPrev - g.mu| := by
  have h := step_bound hr hu h1 g hk hk' 0
  rw [mul_zero, abs_zero, mul_zero, add_zero] at h
  linarith

theorem callsF_forall {fl : ℚ → ℚ} (P : Ou ℚ → Prop) (Q : ℚ → Prop) (R : ℚ → Prop) (hstep : ∀ g z, P g → Q z → P (ouCallF fl g z).1 ∧ R (ouCallF fl g z).2)
    (zs : List ℚ) : ∀ g, P g → (∀ z ∈ zs, Q z) → ∀ x ∈ (ouCallsF fl g zs).2, R x := by
  induction zs with
  | nil => intro g _ _ x hx; simp [ouCallsF] at hx
  | cons z zs ih =>
    intro g hg hz x hx
    have e : (ouCallsF fl g (z :: zs)).2 = (ouCallF fl g z).2 :: (ouCallsF fl (ouCallF fl g z).1 zs).2 := rfl
    rw [e] at hx
    have hs := hstep g z hg (hz z (by simp))
    rcases List.mem_cons.1 hx with rfl | hx
    · exact hs.2
    · exact ih _ hs.1 (fun y hy => hz y (by simp [hy])) x hx

/-- C258, what holds: with draws of at most `Z` all values stay within `R` of the mean, for every `R` that is at least the distance of the start and
`2 (3 u |mu| + 1.1 |sigma sqrt(dt)| Z) / (theta dt)`. -/
theorem C258_bounded_partial {fl : ℚ → ℚ} {u : ℚ} (hr : Rounding fl u) (hu : 0 ≤ u) (h1 : u ≤ 1 / 100) (g : Ou ℚ) (hk : g.theta * g.dt ≤ 9 / 10)
    (hk' : 10 * u ≤ g.theta * g.dt) (Z R : ℚ) (hstart : |g.xPrev - g.mu| ≤ R) (hR : 2 * (3 * u * |g.mu| + 11 / 10 * (|g.sigma * g.sqrtDt| * Z)) ≤ g.theta * g.dt * R)
    (zs : List ℚ) (hz : ∀ z ∈ zs, |z| ≤ Z) : ∀ x ∈ (ouCallsF fl g zs).2, |x - g.mu| ≤ R := by
  refine callsF_forall (fun g' => ({ g' with xPrev := 0 } : Ou ℚ) = { g with xPrev := 0 } ∧ |g'.xPrev - g.mu| ≤ R) (fun z => |z| ≤ Z) (fun x => |x - g.mu| ≤ R) ?_ zs g
    ⟨rfl, hstart⟩ hz
  rintro ⟨m, s, t, d, q, x0, x⟩ z ⟨he, hx⟩ hz
  obtain ⟨m', s', t', d', q', x0', x'⟩ := g
  simp only [Ou.mk.injEq, and_true] at he
  obtain ⟨rfl, rfl, rfl, rfl, rfl, rfl⟩ := he
  dsimp only at hx hk hk' hR hstart ⊢
  have hb := step_bound hr hu h1 ⟨m, s, t, d, q, x0, x⟩ hk hk' z
  dsimp only at hb
  have hw : |s * q * z| ≤ |s * q| * Z := by
    rw [abs_mul]
    exact mul_le_mul_of_nonneg_left hz (abs_nonneg _)
  have h2 : (1 - t * d / 2) * |x - m| ≤ (1 - t * d / 2) * R := mul_le_mul_of_nonneg_left hx (by linarith)
  have h3 : |(ouCallF fl ⟨m, s, t, d, q, x0, x⟩ z).2 - m| ≤ R := by linarith
  exact ⟨⟨rfl, h3⟩, h3⟩

/-- C258, what holds: the distance between the process and the exact process with the same start and the same draws stays below `12 u M / (theta dt)` over
all histories, `M` being a bound of the rounded values plus mean plus noise. -/
theorem C258_error_partial {fl : ℚ → ℚ} {u : ℚ} (hr : Rounding fl u) (hu : 0 ≤ u) (h1 : u ≤ 1 / 100) (zs : List ℚ) : ∀ (g : Ou ℚ) (y D M : ℚ), 0 < g.theta * g.dt →
    g.theta * g.dt ≤ 1 → |g.xPrev - y| ≤ D → 12 * u * M ≤ g.theta * g.dt * D →
    (∀ x ∈ g.xPrev :: (ouCallsF fl g zs).2, ∀ z ∈ zs, |x| + |g.mu| + |g.sigma * g.sqrtDt * z| ≤ M) →
    ∀ (i : Nat) (a b : ℚ), (ouCallsF fl g zs).2[i]? = some a → (({ g with xPrev := y } : Ou ℚ).calls zs).2[i]? = some b → |a - b| ≤ D := by
  induction zs with
  | nil => intro g y D M _ _ _ _ _ i a b ha; simp [ouCallsF] at ha
  | cons z zs ih =>
    intro g y D M hk0 hk hy hD hM i a b ha hb
    have ea : (ouCallsF fl g (z :: zs)).2 = (ouCallF fl g z).2 :: (ouCallsF fl (ouCallF fl g z).1 zs).2 := rfl
    have eb : (({ g with xPrev := y } : Ou ℚ).calls (z :: zs)).2 =
        (({ g with xPrev := y } : Ou ℚ).call z).2 :: ((({ g with xPrev := y } : Ou ℚ).call z).1.calls zs).2 := rfl
    rw [ea] at ha hM
    rw [eb] at hb
    have herr := step_error hr hu h1 g (le_of_lt hk0) hk z M (hM _ (by simp) z (by simp))
    have hdiff : (g.call z).2 - (({ g with xPrev := y } : Ou ℚ).call z).2 = (1 - g.theta * g.dt) * (g.xPrev - y) := by simp only [Ou.call]; ring
    have hstep : |(ouCallF fl g z).2 - (({ g with xPrev := y } : Ou ℚ).call z).2| ≤ D := by
      have t := abs_add_le ((ouCallF fl g z).2 - (g.call z).2) ((g.call z).2 - (({ g with xPrev := y } : Ou ℚ).call z).2)
      rw [sub_add_sub_cancel, hdiff, abs_mul, abs_of_nonneg (show 0 ≤ 1 - g.theta * g.dt by linarith)] at t
      have h2 := mul_le_mul_of_nonneg_left hy (show 0 ≤ 1 - g.theta * g.dt by linarith)
      linarith
    cases i with
    | zero =>
      simp only [List.getElem?_cons_zero, Option.some.injEq] at ha hb
      subst ha; subst hb
      exact hstep
    | succ i =>
      rw [List.getElem?_cons_succ] at ha hb
      refine ih (ouCallF fl g z).1 (({ g with xPrev := y } : Ou ℚ).call z).2 D M hk0 hk hstep hD ?_ i a b ha hb
      intro x hx w hw
      exact hM x (List.mem_cons_of_mem _ hx) w (by simp [hw])

/-- C258 with the usual parameters in single precision and a mean of at most 10: as long as the draws are at most 6, all values stay within 1000 of the mean. -/
theorem C258_usual_partial (mu x : ℚ) (hm : |mu| ≤ 10) (hx : |x - mu| ≤ 1000) (zs : List ℚ) (hz : ∀ z ∈ zs, |z| ≤ 6) :
    ∀ v ∈ (ouCallsF single (usual mu x) zs).2, |v - mu| ≤ 1000 := by
  have k1 : single (15 / 100) * single (1 / 100) ≤ 9 / 10 := by decide +kernel
  have k2 : 10 * (1 / 2 ^ 24) ≤ single (15 / 100) * single (1 / 100) := by decide +kernel
  have k3 : |1 * single (1 / 10)| ≤ 101 / 1000 := by decide +kernel
  have k4 : 149 / 100000 ≤ single (15 / 100) * single (1 / 100) := by decide +kernel
  refine C258_bounded_partial single_rounding (by norm_num) (by norm_num) (usual mu x) k1 k2 6 1000 hx ?_ zs hz
  show 2 * (3 * (1 / 2 ^ 24) * |mu| + 11 / 10 * (|1 * single (1 / 10)| * 6)) ≤ single (15 / 100) * single (1 / 100) * 1000
  norm_num at k3 ⊢
  linarith

/-- C258 with the usual parameters in single precision, started within 1000 of a mean of at most 10, draws of at most 6: after any number of calls the value
differs by at most one half from that of the exact process. -/
theorem C258_usual_error_partial (mu x : ℚ) (hm : |mu| ≤ 10) (hx : |x - mu| ≤ 1000) (zs : List ℚ) (hz : ∀ z ∈ zs, |z| ≤ 6) (i : Nat) (a b : ℚ)
    (ha : (ouCallsF single (usual mu x) zs).2[i]? = some a) (hb : ((usual mu x).calls zs).2[i]? = some b) : |a - b| ≤ 1 / 2 := by
  have k1 : single (15 / 100) * single (1 / 100) ≤ 1 := by decide +kernel
  have k3 : |1 * single (1 / 10)| ≤ 101 / 1000 := by decide +kernel
  have k4 : 149 / 100000 ≤ single (15 / 100) * single (1 / 100) := by decide +kernel
  refine C258_error_partial single_rounding (by norm_num) (by norm_num) zs (usual mu x) x (1 / 2) 1021 (lt_of_lt_of_le (by norm_num) k4) k1
    (show |x - x| ≤ 1 / 2 by rw [sub_self, abs_zero]; norm_num) ?_ ?_ i a b ha hb
  · show 12 * (1 / 2 ^ 24) * 1021 ≤ single (15 / 100) * single (1 / 100) * (1 / 2)
    norm_num at k4 ⊢
    linarith
  · intro v hv z hzm
    have hv' : |v - mu| ≤ 1000 := by
      rcases List.mem_cons.1 hv with rfl | hv
      · exact hx
      · exact C258_usual_partial mu x hm hx zs hz v hv
    have h1 : |v| ≤ |v - mu| + |mu| := by
      have := abs_add_le (v - mu) mu
      rwa [sub_add_cancel] at this
    have h2 : |1 * single (1 / 10) * z| ≤ 101 / 1000 * 6 := by
      rw [abs_mul]
      exact mul_le_mul k3 (hz z hzm) (abs_nonneg _) (by norm_num)
    show |v| + |mu| + |1 * single (1 / 10) * z| ≤ 1021
    linarith

/-- A start and draws for which the hypotheses hold. -/
example : ∀ v ∈ (ouCallsF single (usual 0 0) [2, -3, 5]).2, |v - 0| ≤ 1000 := C258_usual_partial 0 0 (by norm_num) (by norm_num) _ (by decide +kernel)

example : 6 * (1 / 2 ^ 24) * |(usual 1 2).mu| < (usual 1 2).theta * (usual 1 2).dt * |(usual 1 2).xPrev - (usual 1 2).mu| := by decide +kernel

end Machin.Precision
