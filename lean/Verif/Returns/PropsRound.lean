import Verif.Returns.RoundLemmas

/-! # C248: values and advantages in floating point -/

namespace Machin.Returns

open Machin.Prio Machin.Prio.Spec Machin.Project
open Machin.Precision (fl_err)

variable {fl : ℚ → ℚ} {u : ℚ} {S : Type}

/-- Two lists of the same length whose entries differ by at most `ε`. -/
def Near (ε : ℚ) (xs ys : List ℚ) : Prop :=
  xs.length = ys.length ∧ ∀ (i : Nat) (a b : ℚ), xs[i]? = some a → ys[i]? = some b → |a - b| ≤ ε

theorem near_of_horner {ε : ℚ} {xs ys : List ℚ} {n : Nat} {F G : Nat → ℚ} (hx : xs.length = n ∧ ∀ i, i < n → xs[i]? = some (F i))
    (hy : ys.length = n ∧ ∀ i, i < n → ys[i]? = some (G i)) (h : ∀ i, i < n → |F i - G i| ≤ ε) : Near ε xs ys := by
  refine ⟨by rw [hx.1, hy.1], ?_⟩
  intro i a b ha hb
  have hi : i < n := by
    have := (List.getElem?_eq_some_iff.1 ha).1
    rwa [hx.1] at this
  rw [hx.2 i hi] at ha
  rw [hy.2 i hi] at hb
  cases ha
  cases hb
  exact h i hi

/-- C248: the discounted values are within a distance of the exact ones that does not depend on the length of the episode. -/
theorem C248_values (hr : Rounding fl u) (hu : 0 ≤ u) (hu1 : u ≤ 1 / 100) (g R : ℚ) (h0 : 0 ≤ g) (h1 : g + 3 * u < 1) (rs : List ℚ)
    (hk : ∀ r ∈ rs, fl r = r) (hR : ∀ r ∈ rs, |r| ≤ R) (hR0 : 0 ≤ R) :
    Near (3 * u * (R / (1 - g)) / (1 - g - 3 * u)) (valuesF fl g rs) (values g rs) := by
  have e := valuesF_spec (fl := id) rfl g rs (fun _ _ => rfl)
  rw [values_id] at e
  refine near_of_horner (valuesF_spec hr.zero g rs hk) e ?_
  intro i _
  rw [horner_id]
  exact hornerF_near hr hu hu1 h0 h1 hR0 _ (fun r h => hR r (List.mem_of_mem_drop h))

/-- C248: so are the n-step values of RAINBOW. -/
theorem C248_nstep (hr : Rounding fl u) (hu : 0 ≤ u) (hu1 : u ≤ 1 / 100) (g R : ℚ) (h0 : 0 ≤ g) (h1 : g + 3 * u < 1) (n : Nat) (rs : List ℚ)
    (hR : ∀ r ∈ rs, |r| ≤ R) (hR0 : 0 ≤ R) : Near (3 * u * (R / (1 - g)) / (1 - g - 3 * u)) (nstepF fl g n rs) (nstep g n rs) := by
  have e := nstepF_spec id g n rs
  rw [nstep_id] at e
  refine near_of_horner (nstepF_spec fl g n rs) e ?_
  intro i _
  rw [horner_id]
  exact hornerF_near hr hu hu1 h0 h1 hR0 _ (fun r h => hR r (List.mem_of_mem_drop (List.mem_of_mem_take h)))

/-- C248: for a discount of at most 0.99 and rewards within `[-1, 1]` the error in double precision is below 10⁻¹¹. -/
theorem C248_double (g : ℚ) (h0 : 0 ≤ g) (h1 : g ≤ 99 / 100) (rs : List ℚ) (hk : ∀ r ∈ rs, double r = r) (hR : ∀ r ∈ rs, |r| ≤ 1) :
    Near (1 / 10 ^ 11) (valuesF double g rs) (values g rs) := by
  have h := C248_values (toNearest_rounding (p := 53) (by norm_num)) (by norm_num) (by norm_num) g 1 h0
    (by have : (3 : ℚ) * (1 / 2 ^ 53) < 1 / 100 := by norm_num
        linarith) rs hk hR (by norm_num)
  refine ⟨h.1, fun i a b ha hb => le_trans (h.2 i a b ha hb) ?_⟩
  have e1 : (1 : ℚ) / (1 - g) ≤ 100 := by
    rw [div_le_iff₀ (by linarith)]
    linarith
  have e2 : (99 : ℚ) / 10000 ≤ 1 - g - 3 * (1 / 2 ^ 53) := by
    have : (3 : ℚ) * (1 / 2 ^ 53) ≤ 1 / 10000 := by norm_num
    linarith
  rw [div_le_iff₀ (by linarith)]
  have e3 : (0 : ℚ) ≤ 3 * (1 / 2 ^ 53) := by norm_num
  have e4 := mul_le_mul_of_nonneg_left e1 e3
  have e5 : (3 : ℚ) * (1 / 2 ^ 53) * 100 ≤ 1 / 10 ^ 11 * (99 / 10000) := by norm_num
  have e6 := mul_le_mul_of_nonneg_left e2 (by norm_num : (0 : ℚ) ≤ 1 / 10 ^ 11)
  linarith

/-- C248: rounding keeps the order: an episode with rewards at least as large has values at least as large, without any tolerance. -/
theorem C248_order (hr : Rounding fl u) (g : ℚ) (h0 : 0 ≤ g) (rs ss : List ℚ) (hl : rs.length = ss.length)
    (hle : ∀ (i : Nat) (a b : ℚ), rs[i]? = some a → ss[i]? = some b → a ≤ b) (hk : ∀ r ∈ rs, fl r = r) (hk' : ∀ r ∈ ss, fl r = r) (i : Nat) (a b : ℚ)
    (ha : (valuesF fl g rs)[i]? = some a) (hb : (valuesF fl g ss)[i]? = some b) : a ≤ b := by
  obtain ⟨l1, g1⟩ := valuesF_spec hr.zero g rs hk
  obtain ⟨l2, g2⟩ := valuesF_spec hr.zero g ss hk'
  have hi : i < rs.length := by
    have := (List.getElem?_eq_some_iff.1 ha).1
    rwa [l1] at this
  rw [g1 i hi] at ha
  rw [g2 i (hl ▸ hi)] at hb
  cases ha
  cases hb
  refine hornerF_mono hr h0 _ _ (by simp [hl]) ?_
  intro j a b ha hb
  rw [List.getElem?_drop] at ha hb
  exact hle _ a b ha hb

/-- C248: without discount and with whole numbers as rewards the values are exact, as long as no sum reaches 2⁵³. -/
theorem C248_integers (ks : List Int) (m : Nat) (hm : ∀ k ∈ ks, |k| ≤ m) (hl : ks.length * m < 2 ^ 53) :
    valuesF double 1 (ks.map fun (k : Int) => (k : ℚ)) = values 1 (ks.map fun (k : Int) => (k : ℚ)) := by
  have hz : double 0 = 0 := rfl
  by_cases hm0 : m = 0
  · have hall : ∀ r ∈ ks.map (fun (k : Int) => (k : ℚ)), r = 0 := by
      intro r hr
      obtain ⟨k, hk, rfl⟩ := List.mem_map.1 hr
      have := hm k hk
      rw [hm0] at this
      have : k = 0 := abs_eq_zero.1 (le_antisymm (by simpa using this) (abs_nonneg k))
      simp [this]
    generalize ks.map (fun (k : Int) => (k : ℚ)) = rs at hall
    obtain ⟨l1, g1⟩ := valuesF_spec hz 1 rs (fun r hr => by rw [hall r hr]; rfl)
    have e := valuesF_spec (fl := id) rfl 1 rs (fun _ _ => rfl)
    rw [values_id] at e
    have zero : ∀ (f : ℚ → ℚ), f 0 = 0 → ∀ l : List ℚ, (∀ r ∈ l, r = 0) → hornerF f 1 l = 0 := by
      intro f hf l
      induction l with
      | nil => intro _; rfl
      | cons r l ih =>
        intro h
        rw [hornerF, ih (fun x hx => h x (by simp [hx])), h r (by simp)]
        simp [hf]
    apply List.ext_getElem?
    intro i
    by_cases hi : i < rs.length
    · rw [g1 i hi, e.2 i hi, zero _ hz _ (fun r hr => hall r (List.mem_of_mem_drop hr)), zero id rfl _ (fun r hr => hall r (List.mem_of_mem_drop hr))]
    · rw [List.getElem?_eq_none (by omega), List.getElem?_eq_none (by omega)]
  · have hmp : 1 ≤ m := Nat.one_le_iff_ne_zero.2 hm0
    have hkept : ∀ r ∈ ks.map (fun (k : Int) => (k : ℚ)), double r = r := by
      intro r hr
      obtain ⟨k, hk, rfl⟩ := List.mem_map.1 hr
      apply double_intAbs
      refine lt_of_le_of_lt (hm k hk) ?_
      have h1 : 1 ≤ ks.length := List.length_pos_iff.2 (List.ne_nil_of_mem hk)
      have : m ≤ ks.length * m := Nat.le_mul_of_pos_left m h1
      exact_mod_cast lt_of_le_of_lt this hl
    obtain ⟨l1, g1⟩ := valuesF_spec hz 1 _ hkept
    have e := valuesF_spec (fl := id) rfl 1 (ks.map fun (k : Int) => (k : ℚ)) (fun _ _ => rfl)
    rw [values_id] at e
    apply List.ext_getElem?
    intro i
    by_cases hi : i < (ks.map fun (k : Int) => (k : ℚ)).length
    · rw [g1 i hi, e.2 i hi, ← List.map_drop]
      have hd : ∀ k ∈ ks.drop i, |k| ≤ m := fun k hk => hm k (List.mem_of_mem_drop hk)
      have hln : (ks.drop i).length * m < 2 ^ 53 := lt_of_le_of_lt (Nat.mul_le_mul_right m (by simp)) hl
      rw [(hornerF_int double_intAbs m _ hd hln).1, (hornerF_int (fl := id) (fun _ _ => rfl) m _ hd hln).1]
    · rw [List.getElem?_eq_none (by omega), List.getElem?_eq_none (by omega)]

/-- C248: the n-step values of RAINBOW, for `n` at least the length of the episode, are the values of A2C bit for bit. -/
theorem C248_same (h0 : fl 0 = 0) (g : ℚ) (n : Nat) (rs : List ℚ) (hk : ∀ r ∈ rs, fl r = r) (hn : rs.length ≤ n) : nstepF fl g n rs = valuesF fl g rs := by
  obtain ⟨l1, g1⟩ := valuesF_spec h0 g rs hk
  obtain ⟨l2, g2⟩ := nstepF_spec fl g n rs
  apply List.ext_getElem?
  intro i
  by_cases hi : i < rs.length
  · rw [g1 i hi, g2 i hi, List.take_of_length_le (by simp; omega)]
  · rw [List.getElem?_eq_none (by omega), List.getElem?_eq_none (by omega)]

/-- C248: the advantages of the general branch, for a critic bounded by `B`. -/
theorem C248_general (hr : Rounding fl u) (hu : 0 ≤ u) (hu1 : u ≤ 1 / 100) (g l R B : ℚ) (h0 : 0 ≤ g) (h1 : g ≤ 1) (l0 : 0 ≤ l) (l1 : l ≤ 1)
    (hgl : g * l + 5 * u < 1) (V : S → ℚ) (hV : ∀ s, |V s| ≤ B) (hB : 0 ≤ B) (hR : 0 ≤ R) (ep : List (Tr ℚ S)) (he : ∀ tr ∈ ep, |tr.reward| ≤ R) :
    Near (5 * u * ((R + 2 * B) / (1 - g * l)) / (1 - g * l - 5 * u)) (gaeGeneralF fl g l V ep) (gaeGeneral g l V ep) := by
  obtain ⟨-, -, -, i4, i5, i6⟩ := gaeLoopF_near hr hu hu1 h0 h1 l0 l1 hgl V hV hB hR ep he
  exact ⟨i4.trans i5.symm, i6⟩

/-- C248: the advantages for `gae_lambda == 0.0`. -/
theorem C248_zero (hr : Rounding fl u) (hu : 0 ≤ u) (hu1 : u ≤ 1 / 100) (g R B : ℚ) (h0 : 0 ≤ g) (h1 : g ≤ 1) (hg : fl g = g) (V : S → ℚ)
    (hV : ∀ s, |V s| ≤ B) (ep : List (Tr ℚ S)) (he : ∀ tr ∈ ep, |tr.reward| ≤ R) :
    Near (16 / 5 * u * (R + 2 * B)) (gaeZeroF fl g V ep) (gaeZero g V ep) := by
  refine ⟨by simp [gaeZeroF, gaeZero], ?_⟩
  intro i a b ha hb
  simp only [gaeZeroF, gaeZero, List.getElem?_map, Option.map_eq_some_iff] at ha hb
  obtain ⟨tr, ht, rfl⟩ := ha
  obtain ⟨tr', ht', rfl⟩ := hb
  rw [ht] at ht'
  cases ht'
  have key := (delta_err hr hu hu1 h0 h1 (notTerm_cases tr.terminal) (he tr (List.mem_of_getElem? ht)) (hV tr.next) (hV tr.state)).1
  rcases notTerm_cases tr.terminal with e | e
  · rw [e] at key ⊢
    simp only [mul_zero, zero_mul, hr.zero, add_zero] at key ⊢
    exact key
  · rw [e] at key ⊢
    simp only [mul_one, hr.idem, hg] at key ⊢
    exact key

/-- C248: the advantages for `gae_lambda == 1.0`; `E` bounds the error of the values and `D` the exact ones. -/
theorem C248_one (hr : Rounding fl u) (hu : 0 ≤ u) (hu1 : u ≤ 1 / 100) (g R B : ℚ) (h0 : 0 ≤ g) (h1 : g + 3 * u < 1) (V : S → ℚ) (hV : ∀ s, |V s| ≤ B)
    (ep : List (Tr ℚ S)) (he : ∀ tr ∈ ep, |tr.reward| ≤ R ∧ fl tr.reward = tr.reward) (hR : 0 ≤ R) (E D : ℚ) (hE : E = 3 * u * (R / (1 - g)) / (1 - g - 3 * u))
    (hD : D = R / (1 - g)) : Near ((1 + 2 * u) * E + 2 * u * (D + B)) (gaeOneF fl g V ep) (gaeOne g V ep) := by
  have hk : ∀ r ∈ ep.map (·.reward), fl r = r := by
    intro r hr
    obtain ⟨tr, h, rfl⟩ := List.mem_map.1 hr
    exact (he tr h).2
  have hRr : ∀ r ∈ ep.map (·.reward), |r| ≤ R := by
    intro r hr
    obtain ⟨tr, h, rfl⟩ := List.mem_map.1 hr
    exact (he tr h).1
  obtain ⟨n1, n2⟩ := C248_values hr hu hu1 g R h0 h1 _ hk hRr hR
  rw [← hE] at n2
  have e := valuesF_spec (fl := id) rfl g (ep.map (·.reward)) (fun _ _ => rfl)
  rw [values_id] at e
  have hlen : (values g (ep.map (·.reward))).length = ep.length := by rw [e.1, List.length_map]
  refine ⟨by simp [gaeOneF, gaeOne, n1], ?_⟩
  intro i a b ha hb
  unfold gaeOneF at ha
  unfold gaeOne at hb
  rw [List.getElem?_zipWith] at ha hb
  cases hw : (valuesF fl g (ep.map (·.reward)))[i]? with
  | none => simp [hw] at ha
  | some w =>
    cases hv : (values g (ep.map (·.reward)))[i]? with
    | none => simp [hv] at hb
    | some v =>
      cases ht : ep[i]? with
      | none => simp [ht, hv] at hb
      | some tr =>
        simp only [hw, hv, ht, Option.some.injEq] at ha hb
        subst ha
        subst hb
        have h2 := n2 i w v hw hv
        have hi : i < (ep.map (·.reward)).length := by
          have := (List.getElem?_eq_some_iff.1 hv).1
          rwa [e.1] at this
        have hvD : |v| ≤ D := by
          have := e.2 i hi
          rw [hv, horner_id] at this
          cases this
          rw [hD]
          exact horner_bound h0 (by linarith) hR _ (fun r h => hRr r (List.mem_of_mem_drop h))
        have f1 := fl_err hr hu hu1 (w - V tr.state)
        have hB := hV tr.state
        have hwb : |w| ≤ D + E := by
          have := abs_add_le v (w - v)
          rw [add_sub_cancel] at this
          linarith
        have hsub := abs_sub w (V tr.state)
        have m := mul_le_mul_of_nonneg_left (show |w - V tr.state| ≤ D + E + B by linarith) hu
        have tri : |fl (w - V tr.state) - (v - V tr.state)| ≤ |fl (w - V tr.state) - (w - V tr.state)| + |w - v| := by
          have e : fl (w - V tr.state) - (v - V tr.state) = (fl (w - V tr.state) - (w - V tr.state)) + (w - v) := by ring
          rw [e]
          exact abs_add_le _ _
        have E0 : 0 ≤ E := le_trans (abs_nonneg _) h2
        have D0 : 0 ≤ D := le_trans (abs_nonneg _) hvD
        have B0 : 0 ≤ B := le_trans (abs_nonneg _) hB
        have := mul_nonneg hu E0
        have := mul_nonneg hu D0
        have := mul_nonneg hu B0
        linarith

/-- C248: the branch that is taken. -/
theorem C248_branches (fl : ℚ → ℚ) (g l : ℚ) (V : S → ℚ) (ep : List (Tr ℚ S)) : (l = 1 → gaeF fl g l V ep = gaeOneF fl g V ep ∧ gae g l V ep = gaeOne g V ep) ∧
    (l = 0 → gaeF fl g l V ep = gaeZeroF fl g V ep ∧ gae g l V ep = gaeZero g V ep) ∧
    (l ≠ 1 → l ≠ 0 → gaeF fl g l V ep = gaeGeneralF fl g l V ep ∧ gae g l V ep = gaeGeneral g l V ep) := by
  refine ⟨?_, ?_, ?_⟩
  · intro h
    simp [gaeF, gae, h]
  · intro h
    simp [gaeF, gae, h]
  · intro h1 h2
    simp [gaeF, gae, h1, h2]

/-- Rounding is visible: one value of an episode with a discount of 0.9. -/
example : valuesF double (double (9 / 10)) [double (1 / 10), 1, 1] ≠ values (double (9 / 10)) [double (1 / 10), 1, 1] ∧
    ∀ r ∈ [double (1 / 10), 1, 1], double r = r ∧ |r| ≤ 1 := by
  refine ⟨by decide +kernel, by decide +kernel⟩

example : valuesF double 1 [3, -5, 7] = [5, 2, 7] ∧ nstepF double (1 / 2) 2 [1, 2, 4, 8] = [2, 4, 8, 8] := by decide +kernel

example : gaeF double (1 / 2) (1 / 2) (fun _ : Nat => 1) [⟨0, 1, 1, false⟩, ⟨1, 2, 2, true⟩] = [3 / 4, 1] := by decide +kernel

end Machin.Returns
