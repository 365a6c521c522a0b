import Verif.Noise.Props

/-! # C62, exactly: what is left in the parameters when noise is switched off -/

namespace Machin.Noise

/-- The noises that were drawn during passes with noise on, for a fresh hook: that of the first pass, and of every later pass with the reset switch on. -/
def drawn {K : Type} : List (Bool × (Nat → K)) → List (Nat → K)
  | [] => []
  | p :: ps => p.2 :: (ps.filter (·.1)).map (·.2)

/-- A list of values with noises added to them, one after the other. -/
def addAll {K : Type} [Add K] (vs : List K) (ns : List (Nat → K)) : List K := vs.mapIdx fun i v => ns.foldl (fun v n => v + n i) v

/-- What holds while noise is on: the values at the beginning, and the noises drawn since. -/
structure Noisy {K : Type} [Add K] (vs : List K) (ns : List (Nat → K)) (s : Hooked K) : Prop where
  sound : Sound s
  values : s.values = addAll vs ns
  org : s.org.map s.heap = addAll vs ns.dropLast
  noisy : s.noisy.map s.heap = addAll vs ns

theorem addAll_snoc {K : Type} [Add K] (vs : List K) (ns : List (Nat → K)) (n : Nat → K) :
    addAll vs (ns ++ [n]) = (addAll vs ns).mapIdx fun i v => v + n i := by
  simp [addAll, List.mapIdx_mapIdx, Function.comp_def]

theorem generate_noisy {K : Type} [Add K] (vs : List K) (ns : List (Nat → K)) (s : Hooked K) (hs : Sound s) (hv : s.values = addAll vs ns) (r : Bool)
    (n : Nat → K) (hg : s.noisy = [] ∨ r = true) : Noisy vs (ns ++ [n]) (s.forward true r n) := by
  obtain ⟨g1, g2, g3, g4, g5, -, -, -, -, g10⟩ := forward_generate s hs.1 hs.2.1 r n hg
  have e1 : (s.forward true r n).values = addAll vs (ns ++ [n]) := by
    rw [addAll_snoc, ← hv]
    refine List.ext_getElem? fun i => ?_
    rw [List.getElem?_mapIdx]
    simp only [Hooked.values, g1, List.getElem?_map]
    cases hp : s.params[i]? with
    | none => rfl
    | some p => simp [g5 i p hp]
  refine ⟨sound_forward s hs _ _ _, e1, by rw [List.dropLast_concat, ← hv, g2], ?_⟩
  rw [addAll_snoc, ← hv]
  refine List.ext_getElem? fun i => ?_
  rw [List.getElem?_mapIdx]
  simp only [Hooked.values, List.getElem?_map]
  cases hp : (s.forward true r n).noisy[i]? with
  | none =>
    have : s.params[i]? = none := by
      rw [List.getElem?_eq_none_iff] at hp ⊢
      omega
    simp [this]
  | some p =>
    obtain ⟨q, h1, h2⟩ := g10 i p hp
    simp [h1, h2]

theorem addAll_nil {K : Type} [Add K] (ns : List (Nat → K)) : addAll ([] : List K) ns = [] := rfl

theorem addAll_length {K : Type} [Add K] (vs : List K) (ns : List (Nat → K)) : (addAll vs ns).length = vs.length := by simp [addAll]

theorem noisy_passes {K : Type} [Add K] (vs : List K) (passes : List (Bool × (Nat → K))) :
    ∀ (ns : List (Nat → K)) (s : Hooked K), ns ≠ [] → Noisy vs ns s → Noisy vs (ns ++ (passes.filter (·.1)).map (·.2)) (noisyPasses s passes) := by
  induction passes with
  | nil => intro ns s _ h; simpa [noisyPasses] using h
  | cons p ps ih =>
    intro ns s hne h
    have hst : noisyPasses s (p :: ps) = noisyPasses (s.forward true p.1 p.2) ps := rfl
    rw [hst]
    cases hp : p.1 with
    | true =>
      have := ih (ns ++ [p.2]) _ (by simp) (generate_noisy vs ns s h.sound h.values p.1 p.2 (Or.inr hp))
      rw [hp] at this
      simpa [hp] using this
    | false =>
      have hnext : Noisy vs ns (s.forward true p.1 p.2) := by
        by_cases hn : s.noisy = []
        · have hl : vs.length = 0 := by rw [← addAll_length vs ns, ← h.noisy, hn]; rfl
          have hv0 : vs = [] := List.eq_nil_of_length_eq_zero hl
          have := generate_noisy vs ns s h.sound h.values p.1 p.2 (Or.inl hn)
          subst hv0
          exact ⟨this.sound, this.values, this.org, this.noisy⟩
        · have hf : s.forward true p.1 p.2 = { s with params := s.noisy } := by unfold Hooked.forward; rw [if_pos rfl, if_pos ⟨hn, hp⟩]
          refine ⟨sound_forward s h.sound _ _ _, ?_, ?_, ?_⟩
          · rw [hf]; exact h.noisy
          · rw [hf]; exact h.org
          · rw [hf]; exact h.noisy
      have := ih ns _ hne hnext
      rw [hp] at this
      simpa [hp] using this

/-- **C62** (partial), exactly: with a fresh hook, after any sequence of passes with noise on, switching noise off leaves in every parameter the noise of all draws
but the last one. -/
theorem C62_exact_partial {K : Type} [Add K] (s : Hooked K) (hs : Settled s) (ho : s.org = [] ∧ s.noisy = []) (passes : List (Bool × (Nat → K))) (b : Bool)
    (n : Nat → K) : ((noisyPasses s passes).forward false b n).values = addAll s.values (drawn passes).dropLast := by
  have hsound : Sound s := ⟨hs.1, hs.2.1, Or.inl ho⟩
  have h0 : s.values = addAll s.values [] := List.ext_getElem? fun i => by simp [addAll]
  rw [forward_off]
  cases passes with
  | nil =>
    show (if s.org = [] then s.values else s.org.map s.heap) = _
    rw [if_pos ho.1]
    exact h0
  | cons p ps =>
    have h1 := generate_noisy s.values [] s hsound h0 p.1 p.2 (Or.inl ho.2)
    have h2 := noisy_passes s.values ps _ _ (by simp) h1
    have hst : noisyPasses s (p :: ps) = noisyPasses (s.forward true p.1 p.2) ps := rfl
    rw [hst]
    have hd : drawn (p :: ps) = [] ++ [p.2] ++ (ps.filter (·.1)).map (·.2) := by simp [drawn]
    rw [hd]
    by_cases hc : (noisyPasses (s.forward true p.1 p.2) ps).org = []
    · rw [if_pos hc]
      have hl : s.values.length = 0 := by rw [← addAll_length s.values _, ← h2.org, hc]; rfl
      have hv0 : s.values = [] := List.eq_nil_of_length_eq_zero hl
      rw [h2.values, hv0]
      rfl
    · rw [if_neg hc, h2.org]

/-- Three draws: the noise of the first two stays in the parameter. -/
example : ((noisyPasses ⟨fun _ => (0 : ℚ), 1, [0], [], []⟩ [(false, fun _ => 1), (true, fun _ => 10), (false, fun _ => 100), (true, fun _ => 1000)]).forward
    false false fun _ => 0).values = [11] ∧
    (drawn [(false, fun _ : Nat => (1 : ℚ)), (true, fun _ => 10), (false, fun _ => 100), (true, fun _ => 1000)]).map (· 0) = [1, 10, 1000] := by
  decide +kernel

end Machin.Noise
