import Verif.Noise.Lemmas
import Mathlib.Data.Rat.Defs
import Mathlib.Algebra.Order.Field.Rat
import Mathlib.Tactic.Linarith
import Mathlib.Tactic.Ring
import Mathlib.Tactic.FieldSimp
import Mathlib.Algebra.Order.Ring.Abs
import Mathlib.Data.List.Induction

/-!
# C62, C63, C78–C81: noise

C62: after any sequence of forward passes with noise switched on, switching noise off and running forward restores exactly the
parameters present before noise was switched on. **The code violates it** when the reset switch is on during two or more passes: the
second pass takes the already noisy parameters for the originals.
C63: clipped normal noise lies in `[min, max]`, uniform noise lies in `[min, max]`. **Violated** by both clipped normal functions.
C78: a backward pass swaps the original parameters in, so an optimizer step after it changes the originals. **Violated**: only the last
parameter is swapped.
C79: resetting the Ornstein-Uhlenbeck generator makes it produce the same sequence again for the same draws; the values follow the
recurrence; `add_ou_noise_to_action` works with its default arguments (**violated**).
C80: adaptive noise: the deviation stays positive and is the initial deviation times the coefficient to the number of increases minus
the number of decreases.
C81: `add_normal_noise_to_action` adds mean + deviation × a standard normal draw. **Violated** when one tuple is given.
-/

namespace Machin.Noise

/-! ### C62 -/

/-- No noise is in the model: the hook is fresh, or the last forward pass ran with noise off. -/
def Settled {K : Type} (s : Hooked K) : Prop :=
  s.params.Nodup ∧ (∀ p ∈ s.params, p < s.next) ∧ ((s.org = s.params ∧ s.noisy.length = s.params.length) ∨ (s.org = [] ∧ s.noisy = []))

/-- Forward passes with noise on; each with the position of the reset switch and the noise it would draw. -/
def noisyPasses {K : Type} [Add K] (s : Hooked K) (passes : List (Bool × (Nat → K))) : Hooked K :=
  passes.foldl (fun s p => s.forward true p.1 p.2) s

/-- C62 in full. -/
def C62_full : Prop :=
  ∀ (s : Hooked ℚ) (passes : List (Bool × (Nat → ℚ))) (b : Bool) (n : Nat → ℚ), Settled s →
    ((noisyPasses s passes).forward false b n).values = s.values

/-- Passes without reset do not touch the store and the originals. -/
theorem passes_no_reset {K : Type} [Add K] (s : Hooked K) (hn : s.noisy ≠ []) (passes : List (Bool × (Nat → K)))
    (hr : ∀ p ∈ passes, p.1 = false) :
    (noisyPasses s passes).heap = s.heap ∧ (noisyPasses s passes).org = s.org ∧ (noisyPasses s passes).noisy = s.noisy ∧
      (passes ≠ [] → (noisyPasses s passes).params = s.noisy) := by
  induction passes generalizing s with
  | nil => simp [noisyPasses]
  | cons p ps ih =>
    have h0 : p.1 = false := hr p (by simp)
    have hf : s.forward true p.1 p.2 = { s with params := s.noisy } := by unfold Hooked.forward; rw [if_pos rfl, if_pos ⟨hn, h0⟩]
    have hstep : noisyPasses s (p :: ps) = noisyPasses ({ s with params := s.noisy } : Hooked K) ps := by
      unfold noisyPasses; rw [List.foldl_cons, hf]
    rw [hstep]
    obtain ⟨i1, i2, i3, i4⟩ := ih { s with params := s.noisy } hn (fun q hq => hr q (by simp [hq]))
    refine ⟨i1, i2, i3, fun _ => ?_⟩
    cases ps with
    | nil => rfl
    | cons q ps => exact i4 (by simp)

/-- Switching noise off gives the originals. -/
theorem forward_off {K : Type} [Add K] (s : Hooked K) (b : Bool) (n : Nat → K) :
    (s.forward false b n).values = if s.org = [] then s.values else s.org.map s.heap := by
  unfold Hooked.forward
  by_cases h : s.org = []
  · simp [h]
  · simp [h, Hooked.values]

/-- A pass that generates noise. -/
theorem forward_generate {K : Type} [Add K] (s : Hooked K) (hnd : s.params.Nodup) (hlt : ∀ p ∈ s.params, p < s.next) (reset : Bool)
    (n : Nat → K) (hg : s.noisy = [] ∨ reset = true) :
    (s.forward true reset n).params = s.params ∧ (s.forward true reset n).org.map (s.forward true reset n).heap = s.values ∧
      (s.forward true reset n).org.length = s.params.length ∧ (s.forward true reset n).noisy.length = s.params.length ∧
      (∀ i p, s.params[i]? = some p → (s.forward true reset n).heap p = s.heap p + n i) ∧
      (∀ p ∈ s.params, p < (s.forward true reset n).next) ∧
      (∀ a ∈ (s.forward true reset n).org, s.next ≤ a) ∧ (∀ a ∈ (s.forward true reset n).noisy, s.next ≤ a) ∧
      ((s.forward true reset n).org ++ (s.forward true reset n).noisy).Nodup ∧
      (∀ i p, (s.forward true reset n).noisy[i]? = some p →
        ∃ q, s.params[i]? = some q ∧ (s.forward true reset n).heap p = s.heap q + n i) := by
  have hc : ¬ (s.noisy ≠ [] ∧ reset = false) := by
    rintro ⟨h1, h2⟩
    rcases hg with hg | hg
    · exact h1 hg
    · rw [hg] at h2; cases h2
  unfold Hooked.forward
  rw [if_pos rfl, if_neg hc]
  have := generate_spec n 0 s.heap s.next s.params hnd hlt
  simp only at this
  generalize generate n 0 s.heap s.next s.params = r at this
  obtain ⟨h, next, org, noisy⟩ := r
  simp only at this ⊢
  obtain ⟨i1, i2, i3, i4, i5, i6, i7, i8, i9, i10⟩ := this
  refine ⟨trivial, i4, i2, i3, fun i p hp => by simpa using i5 i p hp, fun p hp => by have := hlt p hp; omega,
    fun a ha => (i8 a ha).1, fun a ha => (i9 a ha).1, i10, fun i p hp => ?_⟩
  obtain ⟨q, g1, g2⟩ := i6 i p hp
  exact ⟨q, g1, by simpa using g2⟩

/-- **C62** (partial): if the reset switch is off during all passes but the first (that is, noise is drawn once), switching noise off
restores the parameters. Missing: several passes with reset on. -/
theorem C62_restored_partial {K : Type} [Add K] (s : Hooked K) (hs : Settled s) (passes : List (Bool × (Nat → K)))
    (hr : ∀ p ∈ passes.tail, p.1 = false) (b : Bool) (n : Nat → K) :
    ((noisyPasses s passes).forward false b n).values = s.values := by
  obtain ⟨hnd, hlt, ho⟩ := hs
  rw [forward_off]
  cases passes with
  | nil =>
    show (if s.org = [] then s.values else s.org.map s.heap) = _
    split
    · rfl
    · rcases ho with ho | ho
      · rw [ho.1]; rfl
      · exact absurd ho.1 ‹_›
  | cons p ps =>
    have hstep : noisyPasses s (p :: ps) = noisyPasses (s.forward true p.1 p.2) ps := rfl
    rw [hstep]
    simp only [List.tail_cons] at hr
    by_cases hg : s.noisy = [] ∨ p.1 = true
    · obtain ⟨g1, g2, g3, g4, _⟩ := forward_generate s hnd hlt p.1 p.2 hg
      by_cases hp : s.params = []
      · -- no parameters at all
        have hv : s.values = [] := by unfold Hooked.values; rw [hp]; rfl
        have key : ∀ (ps : List (Bool × (Nat → K))) (s : Hooked K), s.params = [] → s.org = [] → s.noisy = [] →
            (noisyPasses s ps).org = [] ∧ (noisyPasses s ps).values = [] := by
          intro ps
          induction ps with
          | nil => intro s h1 h2 h3; exact ⟨h2, by simp [noisyPasses, Hooked.values, h1]⟩
          | cons q qs ih =>
            intro s h1 h2 h3
            have : s.forward true q.1 q.2 = { s with org := [], noisy := [] } := by
              unfold Hooked.forward
              rw [if_pos rfl, if_neg (by rw [h3]; simp), h1]
              simp [generate]
            have hst : noisyPasses s (q :: qs) = noisyPasses ({ s with org := [], noisy := [] } : Hooked K) qs := by
              unfold noisyPasses; rw [List.foldl_cons, this]
            rw [hst]
            exact ih _ h1 rfl rfl
        have h1 : (s.forward true p.1 p.2).params = [] := by rw [g1, hp]
        have h2 : (s.forward true p.1 p.2).org = [] := List.eq_nil_of_length_eq_zero (by rw [g3, hp]; rfl)
        have h3 : (s.forward true p.1 p.2).noisy = [] := List.eq_nil_of_length_eq_zero (by rw [g4, hp]; rfl)
        obtain ⟨k1, k2⟩ := key ps _ h1 h2 h3
        rw [if_pos k1, k2, hv]
      · have hl : s.params.length ≠ 0 := fun h => hp (List.eq_nil_of_length_eq_zero h)
        have hn : (s.forward true p.1 p.2).noisy ≠ [] := by intro h; rw [h] at g4; exact hl g4.symm
        have hno : (s.forward true p.1 p.2).org ≠ [] := by intro h; rw [h] at g3; exact hl g3.symm
        obtain ⟨k1, k2, _, _⟩ := passes_no_reset _ hn ps hr
        rw [k1, k2, if_neg hno, g2]
    · simp only [not_or, Bool.not_eq_true] at hg
      have ho' : s.org = s.params ∧ s.noisy.length = s.params.length := by
        rcases ho with ho | ho
        · exact ho
        · exact absurd ho.2 hg.1
      have hf : s.forward true p.1 p.2 = { s with params := s.noisy } := by unfold Hooked.forward; rw [if_pos rfl, if_pos hg]
      rw [hf]
      obtain ⟨k1, k2, _, k4⟩ := passes_no_reset ({ s with params := s.noisy } : Hooked K) hg.1 ps hr
      rw [k1, k2]
      simp only
      by_cases hp : s.org = []
      · exact absurd (List.eq_nil_of_length_eq_zero (by rw [ho'.2, ← ho'.1, hp]; rfl)) hg.1
      · rw [if_neg hp, ho'.1]
        rfl

/-- What holds after any history of forward passes. -/
def Sound {K : Type} (s : Hooked K) : Prop :=
  s.params.Nodup ∧ (∀ p ∈ s.params, p < s.next) ∧
    ((s.org = [] ∧ s.noisy = []) ∨
      (s.org.length = s.params.length ∧ s.noisy.length = s.params.length ∧ s.org.Nodup ∧ s.noisy.Nodup ∧
        (∀ p ∈ s.org, p < s.next) ∧ ∀ p ∈ s.noisy, p < s.next))

theorem sound_forward {K : Type} [Add K] (s : Hooked K) (h : Sound s) (perturb reset : Bool) (n : Nat → K) :
    Sound (s.forward perturb reset n) := by
  obtain ⟨hnd, hlt, ho⟩ := h
  unfold Hooked.forward
  cases perturb with
  | true =>
    simp only [if_true]
    by_cases hc : s.noisy ≠ [] ∧ reset = false
    · rw [if_pos hc]
      rcases ho with ho | ⟨h1, h2, h3, h4, h5, h6⟩
      · exact absurd ho.2 hc.1
      · exact ⟨h4, h6, .inr ⟨by simp [h1, h2], rfl, h3, h4, h5, h6⟩⟩
    · rw [if_neg hc]
      have := generate_spec n 0 s.heap s.next s.params hnd hlt
      simp only at this
      generalize generate n 0 s.heap s.next s.params = r at this
      obtain ⟨h, next, org, noisy⟩ := r
      simp only at this ⊢
      obtain ⟨i1, i2, i3, i4, i5, i6, i7, i8, i9, i10⟩ := this
      rw [List.nodup_append] at i10
      exact ⟨hnd, fun p hp => by have := hlt p hp; simp only; omega,
        .inr ⟨i2, i3, i10.1, i10.2.1, fun p hp => (i8 p hp).2, fun p hp => (i9 p hp).2⟩⟩
  | false =>
    simp only [Bool.false_eq_true, if_false]
    by_cases hc : s.org ≠ []
    · rw [if_pos hc]
      rcases ho with ho | ⟨h1, h2, h3, h4, h5, h6⟩
      · exact absurd ho.1 hc
      · exact ⟨h3, h5, .inr ⟨rfl, by simp [h1, h2], h3, h4, h5, h6⟩⟩
    · rw [if_neg hc]
      exact ⟨hnd, hlt, ho⟩

/-- **C62** (partial, second part): whatever forward passes have happened, a pass with noise off leaves the hook in a state to which
`C62_restored_partial` applies again. -/
theorem C62_settled_again_partial {K : Type} [Add K] (s : Hooked K) (h : Sound s) (history : List (Bool × Bool × (Nat → K))) (b : Bool)
    (n : Nat → K) : Settled ((history.foldl (fun s p => s.forward p.1 p.2.1 p.2.2) s).forward false b n) := by
  have hs : Sound (history.foldl (fun s p => s.forward p.1 p.2.1 p.2.2) s) := by
    induction history generalizing s with
    | nil => exact h
    | cons p ps ih => exact ih _ (sound_forward s h _ _ _)
  generalize history.foldl (fun s p => s.forward p.1 p.2.1 p.2.2) s = t at hs
  obtain ⟨hnd, hlt, ho⟩ := hs
  unfold Hooked.forward
  simp only [Bool.false_eq_true, if_false]
  by_cases hc : t.org ≠ []
  · rw [if_pos hc]
    rcases ho with ho | ⟨h1, h2, h3, h4, h5, h6⟩
    · exact absurd ho.1 hc
    · exact ⟨h3, h5, .inl ⟨rfl, by simp [h1, h2]⟩⟩
  · rw [if_neg hc]
    simp only [ne_eq, not_not] at hc
    rcases ho with ho | ⟨h1, h2, _⟩
    · exact ⟨hnd, hlt, .inr ho⟩
    · exact ⟨hnd, hlt, .inl ⟨by rw [hc] at h1 ⊢; exact (List.eq_nil_of_length_eq_zero h1.symm).symm, h2⟩⟩

/-- **C62** (what the code does with the reset switch on): switching noise off gives the parameters as they were before the *last*
pass, and by then the noise of all earlier passes is in them. -/
theorem C62_reset_accumulates_partial {K : Type} [AddMonoid K] (s : Hooked K) (hs : Sound s) (passes : List (Nat → K)) (m : Nat → K)
    (b : Bool) (n : Nat → K) :
    ((noisyPasses s (passes.map (fun x => (true, x)) ++ [(true, m)])).forward false b n).values =
        (noisyPasses s (passes.map fun x => (true, x))).values ∧
      ∀ i v, s.values[i]? = some v →
        (noisyPasses s (passes.map fun x => (true, x))).values[i]? = some (passes.foldl (fun v x => v + x i) v) := by
  have hsound : ∀ (ps : List (Nat → K)) (s : Hooked K), Sound s → Sound (noisyPasses s (ps.map fun x => (true, x))) := by
    intro ps
    induction ps with
    | nil => intro s h; exact h
    | cons p ps ih => intro s h; exact ih _ (sound_forward s h _ _ _)
  refine ⟨?_, ?_⟩
  · have ht := hsound passes s hs
    have hstep : noisyPasses s (passes.map (fun x => (true, x)) ++ [(true, m)]) =
        (noisyPasses s (passes.map fun x => (true, x))).forward true true m := by
      unfold noisyPasses
      rw [List.foldl_append]
      rfl
    rw [hstep]
    generalize noisyPasses s (passes.map fun x => (true, x)) = t at ht
    obtain ⟨g1, g2, g3, g4, _⟩ := forward_generate t ht.1 ht.2.1 true m (.inr rfl)
    rw [forward_off]
    split
    · next h =>
      have : t.params = [] := List.eq_nil_of_length_eq_zero (by rw [← g3, h]; rfl)
      simp [Hooked.values, g1, this]
    · exact g2
  · induction passes generalizing s with
    | nil => intro i v hv; exact hv
    | cons p ps ih =>
      intro i v hv
      have := ih (s.forward true true p) (sound_forward s hs _ _ _) i (v + p i) (by
        obtain ⟨g1, _, _, _, g5, _⟩ := forward_generate s hs.1 hs.2.1 true p (.inr rfl)
        unfold Hooked.values at hv ⊢
        rw [List.getElem?_map, Option.map_eq_some_iff] at hv
        obtain ⟨a, ha, rfl⟩ := hv
        rw [g1, List.getElem?_map, ha]
        simp [g5 i a ha])
      exact this

/-- A model with two parameters, `5` and `7`, and a fresh hook. -/
def demo : Hooked ℚ := { heap := fun a => if a = 0 then 5 else 7, next := 2, params := [0, 1], org := [], noisy := [] }

theorem demo_settled : Settled demo := by
  refine ⟨by decide, ?_, .inr ⟨rfl, rfl⟩⟩
  intro p hp
  simp [demo] at hp ⊢
  omega

/-- **C62 is violated**: with both switches on, two forward passes with noise `1` leave noise in the parameters. -/
theorem C62_violated : ¬ C62_full := by
  intro h
  have := h demo [(true, fun _ => 1), (true, fun _ => 1)] false (fun _ => 0) demo_settled
  revert this
  decide +kernel

theorem C62_violated_values :
    ((noisyPasses demo [(true, fun _ => 1), (true, fun _ => 1)]).forward false false fun _ => 0).values = [6, 8] := by decide +kernel

/-- Non-vacuity: three passes with one set of noise. -/
example : (noisyPasses demo [(true, fun _ => 1), (false, fun _ => 9), (false, fun _ => 9)]).values = [6, 8] ∧
    ((noisyPasses demo [(true, fun _ => 1), (false, fun _ => 9), (false, fun _ => 9)]).forward false true fun _ => 3).values = [5, 7] := by
  decide +kernel

/-! ### C78 -/

/-- C78 in full: noisy forward, backward, optimizer step, forward with noise off: the step was applied to the originals. -/
def C78_full : Prop :=
  ∀ (s : Hooked ℚ) (r b : Bool) (noise n delta : Nat → ℚ), Settled s → s.org = [] →
    ∀ i v, s.values[i]? = some v →
      ((((s.forward true r noise).backward).step delta).forward false b n).values[i]? = some (v - delta i)

theorem getLast?_of_length {α : Type} (l : List α) (k : Nat) (h : l.length = k + 1) : ∃ x, l.getLast? = some x ∧ l[k]? = some x := by
  rcases List.eq_nil_or_concat l with rfl | ⟨l', x, rfl⟩
  · simp at h
  · simp at h
    exact ⟨x, by simp, by simp [← h]⟩

/-- **C78** (partial): what the code does — the step reaches the last parameter only, the other parameters keep their old values.
For models with one parameter this is the property. Missing: all parameters but the last. -/
theorem C78_last_parameter_partial {K : Type} [AddGroup K] (s : Hooked K) (hs : Settled s) (ho : s.org = []) (r b : Bool)
    (noise n delta : Nat → K) (i : Nat) (v : K) (hv : s.values[i]? = some v) :
    ((((s.forward true r noise).backward).step delta).forward false b n).values[i]? =
      some (if i + 1 = s.params.length then v - delta i else v) := by
  obtain ⟨hnd, hlt, hset⟩ := hs
  have hnoisy : s.noisy = [] := by
    rcases hset with h | h
    · exact List.eq_nil_of_length_eq_zero (by rw [h.2, ← h.1, ho]; rfl)
    · exact h.2
  obtain ⟨g1, g2, g3, g4, g5, g6, g7, g8, g9, g10⟩ := forward_generate s hnd hlt r noise (.inl hnoisy)
  generalize s.forward true r noise = t at g1 g2 g3 g4 g5 g6 g7 g8 g9 g10
  have hi : i < s.params.length := by
    have := (List.getElem?_eq_some_iff.mp hv).1
    simpa [Hooked.values] using this
  obtain ⟨k, hk⟩ : ∃ k, s.params.length = k + 1 := ⟨s.params.length - 1, by omega⟩
  obtain ⟨o, ho1, ho2⟩ := getLast?_of_length t.org k (by rw [g3, hk])
  have hback : t.backward = { t with params := t.params.dropLast ++ [o] } := by unfold Hooked.backward; rw [ho1]
  rw [hback]
  have hone : t.org ≠ [] := by intro h; rw [h] at ho1; simp at ho1
  rw [forward_off]
  have horg : (({ t with params := t.params.dropLast ++ [o] } : Hooked K).step delta).org = t.org := rfl
  rw [horg, if_neg hone]
  show (t.org.map (stepHeap delta 0 t.heap (t.params.dropLast ++ [o])))[i]? = _
  rw [g1]
  have hno : o ∉ s.params.dropLast := by
    intro h
    have h1 := hlt o (List.dropLast_subset _ h)
    have h2 := g7 o (List.mem_of_getElem? ho2)
    omega
  have hnd2 : (s.params.dropLast ++ [o]).Nodup := by
    rw [List.nodup_append]
    refine ⟨hnd.sublist (List.dropLast_sublist _), by simp, ?_⟩
    intro a ha c hc hac
    simp at hc
    subst hc hac
    exact hno ha
  obtain ⟨e1, e2⟩ := stepHeap_spec delta 0 t.heap (s.params.dropLast ++ [o]) hnd2
  have hov : t.org.map t.heap = s.values := g2
  have hoi : ∃ a, t.org[i]? = some a := ⟨t.org[i]'(by omega), List.getElem?_eq_getElem _⟩
  obtain ⟨a, ha⟩ := hoi
  have hav : t.heap a = v := by
    have : (t.org.map t.heap)[i]? = some v := by rw [hov]; exact hv
    rw [List.getElem?_map, ha] at this
    simpa using this
  rw [List.getElem?_map, ha]
  simp only [Option.map_some]
  by_cases hlast : i + 1 = s.params.length
  · rw [if_pos hlast]
    have hik : i = k := by omega
    subst hik
    have hao : a = o := by rw [ho2] at ha; exact (Option.some.inj ha).symm
    subst hao
    rw [e2 i a (by
      rw [List.getElem?_append_right (by simp; omega)]
      simp [hk])]
    rw [hav]
    simp
  · rw [if_neg hlast]
    rw [e1 a, hav]
    intro hm
    rw [List.mem_append, List.mem_singleton] at hm
    rcases hm with hm | hm
    · have h1 := hlt a (List.dropLast_subset _ hm)
      have h2 := g7 a (List.mem_of_getElem? ha)
      omega
    · have hndo : t.org.Nodup := (List.nodup_append.mp g9).1
      have := (List.getElem?_inj (by omega) hndo).mp (ha.trans (by rw [hm, ho2] : some a = t.org[k]?))
      omega

/-- **C78 is violated**: of two parameters, only the last one is trained. -/
theorem C78_violated : ¬ C78_full := by
  intro h
  have := h demo true true (fun _ => 1) (fun _ => 0) (fun _ => 2) demo_settled rfl 0 5 (by decide +kernel)
  revert this
  decide +kernel

theorem C78_violated_values :
    ((((demo.forward true true fun _ => 1).backward).step fun _ => 2).forward false true fun _ => 0).values = [5, 5] := by decide +kernel

/-- Non-vacuity. -/
example : Settled demo ∧ demo.org = [] ∧ demo.values[1]? = some 7 := ⟨demo_settled, rfl, by decide +kernel⟩

/-! ### C63 -/

/-- C63 in full. -/
def C63_full : Prop :=
  (∀ (width : Nat) (action u out : List (List ℚ)) (p : Param (ℚ × ℚ)), (∀ row ∈ u, ∀ x ∈ row, 0 ≤ x ∧ x < 1) →
    addUniform width action u p 1 = .ok out → ∀ (i j : Nat) (ra ro : List ℚ) (a o lo hi : ℚ), action[i]? = some ra → out[i]? = some ro →
      ra[j]? = some a → ro[j]? = some o → (p.cols width).toOption.bind (·[j]?) = some (lo, hi) → lo ≤ hi → lo ≤ o - a ∧ o - a ≤ hi) ∧
  (∀ (width : Nat) (action u out : List (List ℚ)) (p : Param (Clipped ℚ)), (∀ row ∈ u, ∀ x ∈ row, 0 ≤ x ∧ x < 1) →
    addClipped width action u p 1 = .ok out → ∀ (i j : Nat) (ra ro : List ℚ) (a o : ℚ) (c : Clipped ℚ), action[i]? = some ra →
      out[i]? = some ro → ra[j]? = some a → ro[j]? = some o → (p.cols width).toOption.bind (·[j]?) = some c → c.lo ≤ c.hi →
      c.lo ≤ o - a ∧ o - a ≤ c.hi) ∧
  ∀ (c : Clipped ℚ) (z : List ℚ), c.lo ≤ c.hi → ∀ x ∈ clippedGen c z, c.lo ≤ x ∧ x ≤ c.hi

/-- **C63** (partial): the noise added by `add_uniform_noise_to_action` to every component is `ratio` times a number in `[min, max)` of
its column. -/
theorem C63_uniform_partial {K : Type} [Field K] [LinearOrder K] [IsStrictOrderedRing K] (width : Nat) (action u out : List (List K))
    (p : Param (K × K)) (ratio : K) (hu : ∀ row ∈ u, ∀ x ∈ row, 0 ≤ x ∧ x < 1) (ho : addUniform width action u p ratio = .ok out)
    (i j : Nat) (ra ro : List K) (a o lo hi : K) (hra : action[i]? = some ra) (hro : out[i]? = some ro) (ha : ra[j]? = some a)
    (hoj : ro[j]? = some o) (hc : (p.cols width).toOption.bind (·[j]?) = some (lo, hi)) (hle : lo ≤ hi) :
    ∃ noise, o = a + noise * ratio ∧ lo ≤ noise ∧ noise ≤ hi ∧ (lo < hi → noise < hi) := by
  unfold addUniform at ho
  cases hps : p.cols width with
  | error e => rw [hps] at ho; cases ho
  | ok ps =>
    rw [hps] at ho hc
    simp only [Except.ok.injEq] at ho
    simp only [Except.toOption, Option.bind_some] at hc
    subst ho
    rw [List.getElem?_zipWith, hra] at hro
    cases hui : u[i]? with
    | none => rw [hui] at hro; simp at hro
    | some ru =>
      rw [hui] at hro
      simp only [Option.some.injEq] at hro
      subst hro
      unfold addRow uniformRow at hoj
      rw [List.getElem?_zipWith, ha, List.getElem?_zipWith, hc] at hoj
      cases huj : ru[j]? with
      | none => rw [huj] at hoj; simp at hoj
      | some x =>
        rw [huj] at hoj
        simp only [Option.some.injEq] at hoj
        obtain ⟨h0, h1⟩ := hu ru (List.mem_of_getElem? hui) x (List.mem_of_getElem? huj)
        refine ⟨x * (hi - lo) + lo, hoj.symm, ?_, ?_, ?_⟩
        · have := mul_nonneg h0 (sub_nonneg.mpr hle)
          linarith
        · have := mul_le_mul_of_nonneg_right h1.le (sub_nonneg.mpr hle)
          linarith
        · intro hlt
          have := mul_lt_mul_of_pos_right h1 (sub_pos.mpr hlt)
          linarith

/-- **C63** (partial, second part): samples of `UniformNoiseGen` lie in `[min, max]`. -/
theorem C63_uniform_gen_partial {K : Type} [Field K] [LinearOrder K] [IsStrictOrderedRing K] (lo hi : K) (hle : lo ≤ hi) (u : List K)
    (hu : ∀ x ∈ u, 0 ≤ x ∧ x < 1) : ∀ x ∈ uniformGen lo hi u, lo ≤ x ∧ x ≤ hi := by
  intro x hx
  unfold uniformGen at hx
  rw [List.mem_map] at hx
  obtain ⟨y, hy, rfl⟩ := hx
  obtain ⟨h0, h1⟩ := hu y hy
  have g1 := mul_nonneg h0 (sub_nonneg.mpr hle)
  have g2 := mul_le_mul_of_nonneg_right h1.le (sub_nonneg.mpr hle)
  constructor <;> linarith

/-- **C63** (what the code does): `add_clipped_normal_noise_to_action` adds uniform noise between `mean` and `sigma`; the result lies in
`[min, max]` only if both of them do. -/
theorem C63_clipped_between_partial {K : Type} [Field K] [LinearOrder K] [IsStrictOrderedRing K] (ps : List (Clipped K)) (u : List K)
    (hu : ∀ x ∈ u, 0 ≤ x ∧ x < 1) (j : Nat) (c : Clipped K) (x : K) (hc : ps[j]? = some c) (hx : (clippedRow ps u)[j]? = some x)
    (h1 : c.lo ≤ c.mean ∧ c.mean ≤ c.hi) (h2 : c.lo ≤ c.sigma ∧ c.sigma ≤ c.hi) : c.lo ≤ x ∧ x ≤ c.hi := by
  unfold clippedRow at hx
  rw [List.getElem?_zipWith, hc] at hx
  cases hu' : u[j]? with
  | none => rw [hu'] at hx; simp at hx
  | some y =>
    rw [hu'] at hx
    simp only [Option.some.injEq] at hx
    obtain ⟨h0, h1'⟩ := hu y (List.mem_of_getElem? hu')
    have e : x = y * c.sigma + (1 - y) * c.mean := by rw [← hx]; ring
    have hy : 0 ≤ 1 - y := by linarith
    rw [e]
    constructor
    · nlinarith [mul_le_mul_of_nonneg_left h2.1 h0, mul_le_mul_of_nonneg_left h1.1 hy]
    · nlinarith [mul_le_mul_of_nonneg_left h2.2 h0, mul_le_mul_of_nonneg_left h1.2 hy]

/-- **C63** (per-component parameters): a list of tuples with too few or too many entries is refused, by both functions, and nothing else
is: an accepted list has one tuple per column. -/
theorem C63_wrong_number_refused_partial {K : Type} [Field K] (width : Nat) (action u : List (List K)) (ps : List (K × K))
    (cs : List (Clipped K)) (ratio : K) :
    (addUniform width action u (.each ps) ratio = .error .value ↔ ps.length ≠ width) ∧
      (addClipped width action u (.each cs) ratio = .error .value ↔ cs.length ≠ width) := by
  unfold addUniform addClipped Param.cols
  constructor
  · by_cases h : ps.length = width <;> simp [h]
  · by_cases h : cs.length = width <;> simp [h]

/-- **C63 is violated** by `add_clipped_normal_noise_to_action`: mean `0`, deviation `10`, bounds `[-1, 1]`, draw `1/2`. -/
theorem C63_violated_add : addClipped (K := ℚ) 1 [[0]] [[1 / 2]] (.one ⟨0, 10, -1, 1⟩) 1 = .ok [[5]] := by decide +kernel

/-- **C63 is violated** by `ClippedNormalNoiseGen`: a standard normal draw `3` is returned although the bounds are `[-1, 1]`. -/
theorem C63_violated_gen : clippedGen (K := ℚ) ⟨0, 1, -1, 1⟩ [3] = [3] := by decide +kernel

/-- **C63 is violated.** -/
theorem C63_violated : ¬ C63_full := by
  intro h
  have := h.2.2 ⟨0, 1, -1, 1⟩ [3] (by decide +kernel) 3 (by decide +kernel)
  exact absurd this.2 (by decide +kernel)

/-- Non-vacuity. -/
example : addUniform (K := ℚ) 2 [[1, 1]] [[1 / 2, 0]] (.each [(-1, 1), (2, 3)]) 1 = .ok [[1, 3]] ∧
    addUniform (K := ℚ) 2 [[1, 1]] [[1 / 2, 0]] (.each [(-1, 1)]) 1 = .error .value := by decide +kernel

/-! ### C79 -/

/-- The recurrence of the generator, written independently. -/
def ouPath {K : Type} [Field K] (mu sigma theta dt sqrtDt : K) (x : K) : List K → List K
  | [] => []
  | z :: zs =>
    let x' := (1 - theta * dt) * x + theta * dt * mu + sigma * sqrtDt * z
    x' :: ouPath mu sigma theta dt sqrtDt x' zs

theorem calls_path {K : Type} [Field K] (g : Ou K) (zs : List K) :
    (g.calls zs).2 = ouPath g.mu g.sigma g.theta g.dt g.sqrtDt g.xPrev zs := by
  induction zs generalizing g with
  | nil => rfl
  | cons z zs ih =>
    unfold Ou.calls ouPath
    simp only
    have e : g.xPrev + g.theta * (g.mu - g.xPrev) * g.dt + g.sigma * g.sqrtDt * z =
        (1 - g.theta * g.dt) * g.xPrev + g.theta * g.dt * g.mu + g.sigma * g.sqrtDt * z := by ring
    rw [ih]
    simp only [Ou.call, e]

theorem calls_params {K : Type} [Field K] (g : Ou K) (zs : List K) :
    ∃ x, (g.calls zs).1 = { g with xPrev := x } := by
  induction zs generalizing g with
  | nil => exact ⟨g.xPrev, rfl⟩
  | cons z zs ih =>
    unfold Ou.calls
    simp only
    obtain ⟨x, hx⟩ := ih (g.call z).1
    exact ⟨x, by rw [hx]; rfl⟩

/-- C79 in full, for `add_ou_noise_to_action`: with its default arguments it adds noise to the action. -/
def C79_full : Prop := ∀ (gen : Option (Ou ℚ)) (action ratio z : ℚ), ∃ x, (addOu gen none false action ratio z).2 = .ok x

/-- **C79** (partial): after any calls, `reset` makes the generator produce, for the same draws, the sequence that a new generator
produces, and this is the recurrence started at `x0` (or zero). Missing: the default arguments of `add_ou_noise_to_action`. -/
theorem C79_reset_partial {K : Type} [Field K] (g : Ou K) (before zs : List K) :
    ((g.calls before).1.reset.calls zs).2 = (g.reset.calls zs).2 ∧
      (g.reset.calls zs).2 = ouPath g.mu g.sigma g.theta g.dt g.sqrtDt (g.x0.getD 0) zs := by
  obtain ⟨x, hx⟩ := calls_params g before
  rw [calls_path, calls_path, hx]
  exact ⟨rfl, rfl⟩

/-- **C79** (partial, second part): with parameters given at the first use, `add_ou_noise_to_action` adds the values of the recurrence,
whatever parameters are given later. -/
theorem C79_shared_generator_partial {K : Type} [Field K] (g : Ou K) (later : Option (Ou K)) (a1 a2 r z1 z2 : K) :
    ∃ g' x1 x2, addOu none (some g) false a1 r z1 = (some g', .ok (a1 + x1 * r)) ∧
      (addOu (some g') later false a2 r z2).2 = .ok (a2 + x2 * r) ∧
      [x1, x2] = ouPath g.mu g.sigma g.theta g.dt g.sqrtDt (g.x0.getD 0) [z1, z2] := by
  refine ⟨(g.reset.call z1).1, (g.reset.call z1).2, ((g.reset.call z1).1.call z2).2, rfl, rfl, ?_⟩
  have := calls_path g.reset [z1, z2]
  exact this

/-- **C79 is violated**: the default `noise_param=None` cannot be unpacked. -/
theorem C79_violated : ¬ C79_full := by
  intro h
  obtain ⟨x, hx⟩ := h none 0 1 0
  cases hx

/-- Non-vacuity. -/
example : ((⟨0, 1, 1 / 2, 1, 1, some 4, 4⟩ : Ou ℚ).calls [0, 1]).2 = [2, 2] := by decide +kernel

/-! ### C80 -/

/-- **C80**: the deviation stays positive, and is the initial one times the coefficient to the number of distances not above the desired
deviation, divided by the coefficient to the number of distances above it. -/
theorem C80_adaptive {K : Type} [Field K] [LinearOrder K] [IsStrictOrderedRing K] (a : Adaptive K) (ds : List K) (hi : 0 < a.current)
    (hc : 0 < a.coeff) :
    0 < (ds.foldl Adaptive.adapt a).current ∧
      (ds.foldl Adaptive.adapt a).current =
        a.current * a.coeff ^ (ds.countP fun d => decide (d ≤ a.desired)) / a.coeff ^ (ds.countP fun d => decide (a.desired < d)) ∧
      (ds.foldl Adaptive.adapt a).coeff = a.coeff ∧ (ds.foldl Adaptive.adapt a).desired = a.desired := by
  induction ds generalizing a with
  | nil => exact ⟨hi, by simp, rfl, rfl⟩
  | cons d ds ih =>
    rw [List.foldl_cons]
    have hne := ne_of_gt hc
    by_cases h : a.desired < d
    · have e : a.adapt d = { a with current := a.current / a.coeff } := by unfold Adaptive.adapt; rw [if_pos h]
      rw [e]
      obtain ⟨i1, i2, i3, i4⟩ := ih { a with current := a.current / a.coeff } (div_pos hi hc) hc
      refine ⟨i1, ?_, i3, i4⟩
      rw [i2, List.countP_cons_of_neg (by simpa using h), List.countP_cons_of_pos (by simpa using h)]
      simp only
      rw [pow_succ]
      field_simp
    · have e : a.adapt d = { a with current := a.current * a.coeff } := by unfold Adaptive.adapt; rw [if_neg h]
      rw [e]
      obtain ⟨i1, i2, i3, i4⟩ := ih { a with current := a.current * a.coeff } (mul_pos hi hc) hc
      refine ⟨i1, ?_, i3, i4⟩
      rw [i2, List.countP_cons_of_pos (by simpa using h), List.countP_cons_of_neg (by simpa using h)]
      simp only
      rw [pow_succ]
      field_simp

/-- **C80** (direction): with a coefficient above one, a distance above the desired one makes the deviation smaller, any other one makes
it larger. -/
theorem C80_direction {K : Type} [Field K] [LinearOrder K] [IsStrictOrderedRing K] (a : Adaptive K) (d : K) (hi : 0 < a.current)
    (hc : 1 < a.coeff) :
    (a.desired < d → (a.adapt d).current < a.current) ∧ (d ≤ a.desired → a.current < (a.adapt d).current) := by
  unfold Adaptive.adapt
  refine ⟨fun h => ?_, fun h => ?_⟩
  · rw [if_pos h]; exact div_lt_self hi hc
  · rw [if_neg (not_lt.mpr h)]; exact lt_mul_of_one_lt_right hi hc

/-- Non-vacuity. -/
example : ([2, 0, 0, 0].foldl Adaptive.adapt (⟨1, 1, 2, 1⟩ : Adaptive ℚ)).current = 4 := by decide +kernel

/-! ### C81 -/

/-- Addition of `mean + deviation × draw`, times the ratio, to every component; written independently. -/
def normalSpec {K : Type} [Field K] (ps : List (K × K)) (ratio : K) (a z : List K) : List K :=
  (List.zip ps (List.zip a z)).map fun x => x.2.1 + ratio * (x.1.1 + x.1.2 * x.2.2)

/-- C81 in full: `z` are the draws of the normal generator. -/
def C81_full : Prop :=
  ∀ (width : Nat) (action u z : List (List ℚ)) (p : Param (ℚ × ℚ)) (ratio : ℚ) (ps : List (ℚ × ℚ)), p.cols width = .ok ps →
    action.length = z.length → action.length = u.length → (∀ r ∈ action, r.length = width) → (∀ r ∈ z, r.length = width) →
    (∀ r ∈ u, r.length = width) →
    addNormal width action u z p ratio = .ok (List.zipWith (normalSpec ps ratio) action z)

theorem row_normal {K : Type} [Field K] (ps : List (K × K)) (ratio : K) (a z : List K) :
    addRow ratio a (ps.zipWith (fun p x => x * p.2 + p.1) z) = normalSpec ps ratio a z := by
  unfold addRow normalSpec
  induction ps generalizing a z with
  | nil => simp
  | cons p ps ih =>
    cases a with
    | nil => simp
    | cons a as =>
      cases z with
      | nil => simp
      | cons z zs =>
        simp only [List.zipWith_cons_cons, List.zip_cons_cons, List.map_cons, ih]
        congr 1
        ring

/-- **C81** (partial): with one tuple per component, the noise is mean + deviation × normal draw. Missing: one tuple for all. -/
theorem C81_per_component_partial {K : Type} [Field K] (width : Nat) (action u z : List (List K)) (ps : List (K × K)) (ratio : K)
    (hw : ps.length = width) : addNormal width action u z (.each ps) ratio = .ok (List.zipWith (normalSpec ps ratio) action z) := by
  unfold addNormal
  simp only
  rw [if_neg (by simpa using hw)]
  congr 2
  funext a x
  exact row_normal ps ratio a x

/-- **C81** (per-component parameters): a list of tuples is refused exactly if it has not one entry per column. -/
theorem C81_wrong_number_refused_partial {K : Type} [Field K] (width : Nat) (action u z : List (List K)) (ps : List (K × K)) (ratio : K) :
    addNormal width action u z (.each ps) ratio = .error .value ↔ ps.length ≠ width := by
  unfold addNormal
  by_cases h : ps.length = width <;> simp [h]

/-- **C81** (what the code does with one tuple): the normal draws do not matter; the noise of every component lies in
`[mean, mean + deviation)`. -/
theorem C81_one_tuple_uniform_partial {K : Type} [Field K] [LinearOrder K] [IsStrictOrderedRing K] (width : Nat)
    (action u z z' : List (List K)) (p : K × K) (ratio : K) (hp : 0 < p.2) (hu : ∀ row ∈ u, ∀ x ∈ row, 0 ≤ x ∧ x < 1) :
    addNormal width action u z (.one p) ratio = addNormal width action u z' (.one p) ratio ∧
      ∀ out, addNormal width action u z (.one p) ratio = .ok out → ∀ (i j : Nat) (ra ro : List K) (a o : K), action[i]? = some ra →
        out[i]? = some ro → ra[j]? = some a → ro[j]? = some o → ∃ noise, o = a + noise * ratio ∧ p.1 ≤ noise ∧ noise < p.1 + p.2 := by
  refine ⟨rfl, ?_⟩
  intro out ho i j ra ro a o hra hro ha hoj
  unfold addNormal at ho
  simp only [Except.ok.injEq] at ho
  subst ho
  rw [List.getElem?_zipWith, hra] at hro
  cases hui : u[i]? with
  | none => rw [hui] at hro; simp at hro
  | some ru =>
    rw [hui] at hro
    simp only [Option.some.injEq] at hro
    subst hro
    unfold addRow at hoj
    rw [List.getElem?_zipWith, ha, List.getElem?_map] at hoj
    cases huj : ru[j]? with
    | none => rw [huj] at hoj; simp at hoj
    | some x =>
      rw [huj] at hoj
      simp only [Option.map_some, Option.some.injEq] at hoj
      obtain ⟨h0, h1⟩ := hu ru (List.mem_of_getElem? hui) x (List.mem_of_getElem? huj)
      refine ⟨x * p.2 + p.1, hoj.symm, ?_, ?_⟩
      · have := mul_nonneg h0 hp.le
        linarith
      · have := mul_lt_mul_of_pos_right h1 hp
        linarith

/-- **C81 is violated**: mean `0`, deviation `1`, normal draw `-3`, uniform draw `1/2`: the noise is `1/2`. -/
theorem C81_violated : ¬ C81_full := by
  intro h
  have := h 1 [[0]] [[1 / 2]] [[-3]] (.one (0, 1)) 1 [(0, 1)] rfl rfl rfl (by simp) (by simp) (by simp)
  revert this
  decide +kernel

/-- Non-vacuity. -/
example : addNormal (K := ℚ) 2 [[1, 1]] [[0, 0]] [[-1, 2]] (.each [(0, 1), (1, 3)]) 1 = .ok [[0, 8]] := by decide +kernel

end Machin.Noise
