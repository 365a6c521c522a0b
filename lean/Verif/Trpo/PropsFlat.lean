import Verif.Trpo.FlatGrad
import Verif.Trpo.Props

/-! # C210: a step along the flat gradient is a step of every parameter along its gradient -/

namespace Machin.Trpo

variable {K : Type} [Field K]

/-- The gradients have the sizes of their parameters. -/
def Fits (grads : List (Option (List K))) (m : Model K) : Prop :=
  grads.length = m.length ∧ ∀ q ∈ grads.zip m, ∀ g, q.1 = some g → g.length = q.2.data.length

/-- A step of one parameter; a parameter that is not used stays. -/
def stepOne (f : K) (q : Option (List K) × Tensor K) : Tensor K :=
  match q.1 with
  | none => q.2
  | some g => { q.2 with data := q.2.data.zipWith (fun p s => p + f * s) g }

theorem gradOr_length {g : Option (List K)} {p : Tensor K} (h : ∀ x, g = some x → x.length = p.data.length) : (gradOr g p).length = p.data.length := by
  cases g with
  | none => simp [gradOr]
  | some x => exact h x rfl

theorem stepOne_data (f : K) (g : Option (List K)) (p : Tensor K) :
    (stepOne f (g, p)).data = p.data.zipWith (fun p s => p + f * s) (gradOr g p) ∧ (stepOne f (g, p)).shape = p.shape := by
  cases g with
  | some x => exact ⟨rfl, rfl⟩
  | none =>
    refine ⟨?_, rfl⟩
    simp only [stepOne, gradOr]
    generalize p.data = l
    induction l with
    | nil => rfl
    | cons a l ih => simp [List.replicate_succ, ← ih]

theorem flat_zip (f : K) (grads : List (Option (List K))) (m : Model K) (h : Fits grads m) :
    (m.flatMap (·.data)).zipWith (fun p s => p + f * s) (((grads.zip m).map fun q => gradOr q.1 q.2).flatten) =
      ((grads.zip m).map (stepOne f)).flatMap (·.data) := by
  induction m generalizing grads with
  | nil => cases grads <;> simp
  | cons p m ih =>
    obtain ⟨h1, h2⟩ := h
    cases grads with
    | nil => simp at h1
    | cons g grads =>
      have h3 : (gradOr g p).length = p.data.length := gradOr_length (fun x hx => h2 (g, p) (by simp) x hx)
      have h4 := ih grads ⟨by simpa using h1, fun q hq x hx => h2 q (by simp [hq]) x hx⟩
      simp only [List.zip_cons_cons, List.map_cons, List.flatten_cons, List.flatMap_cons]
      rw [List.zipWith_append h3.symm, h4, (stepOne_data f g p).1]

/-- Adding `f` times the flat gradient to the flat parameters and setting the result moves every parameter by `f` times its own gradient; parameters that
the output does not depend on stay. No gradient is left behind. -/
theorem C210_step (m : Model K) (hm : m ≠ []) (hwf : Model.WF m) (grads : List (Option (List K))) (h : Fits grads m) (f : K) :
    ∃ flat g, getFlat m = .ok flat ∧ flatGrad grads m = (.ok g, m.map fun _ => none) ∧ g.length = Model.size m ∧
      setFlat m (flat.zipWith (fun p s => p + f * s) g) = ((grads.zip m).map (stepOne f), .ok ()) := by
  have hne : (grads.zip m).map (fun q => gradOr q.1 q.2) ≠ [] := by
    intro h0
    have := congrArg List.length h0
    simp [h.1] at this
    exact hm this
  have hlen : (((grads.zip m).map fun q => gradOr q.1 q.2).flatten).length = Model.size m := by
    have : ∀ (grads : List (Option (List K))) (m : Model K), Fits grads m → Model.WF m →
        (((grads.zip m).map fun q => gradOr q.1 q.2).flatten).length = Model.size m := by
      intro grads m
      induction m generalizing grads with
      | nil => intro _ _; cases grads <;> simp [Model.size]
      | cons p m ih =>
        intro h hwf
        obtain ⟨h1, h2⟩ := h
        cases grads with
        | nil => simp at h1
        | cons g grads =>
          have h3 : (gradOr g p).length = p.data.length := gradOr_length (fun x hx => h2 (g, p) (by simp) x hx)
          have h4 := ih grads ⟨by simpa using h1, fun q hq x hx => h2 q (by simp [hq]) x hx⟩ (fun q hq => hwf q (by simp [hq]))
          simp only [List.zip_cons_cons, List.map_cons, List.flatten_cons, List.length_append, h3, h4, hwf p (by simp)]
          simp [Model.size]
    exact this grads m h hwf
  refine ⟨m.flatMap (·.data), ((grads.zip m).map fun q => gradOr q.1 q.2).flatten, by unfold getFlat; rw [if_neg hm], ?_, hlen, ?_⟩
  · unfold flatGrad
    split
    · next h0 => exact absurd h0 hne
    · rfl
  · have hl2 : ((m.flatMap (·.data)).zipWith (fun p s => p + f * s) (((grads.zip m).map fun q => gradOr q.1 q.2).flatten)).length = 0 + Model.size m := by
      rw [List.length_zipWith, getFlat_length m hwf, hlen]
      omega
    obtain ⟨m', h1, h2, h3, h4⟩ := setFrom_spec _ 0 m hl2
    rw [setFlat, h1]
    congr 1
    have hsame : Model.Same m ((grads.zip m).map (stepOne f)) := by
      unfold Model.Same
      rw [List.map_map]
      have : ((fun p : Tensor K => p.shape) ∘ stepOne f) = fun q : Option (List K) × Tensor K => q.2.shape := by
        funext q
        exact (stepOne_data f q.1 q.2).2
      rw [this]
      have e : (grads.zip m).map (fun q => q.2.shape) = ((grads.zip m).map Prod.snd).map (·.shape) := by rw [List.map_map]; rfl
      rw [e, List.map_snd_zip h.1.ge]
    have hwf' : Model.WF ((grads.zip m).map (stepOne f)) := by
      intro p hp
      obtain ⟨q, hq, rfl⟩ := List.mem_map.1 hp
      obtain ⟨e1, e2⟩ := stepOne_data f q.1 q.2
      have h5 := gradOr_length (p := q.2) (fun x hx => h.2 q hq x hx)
      have h6 := hwf q.2 (List.of_mem_zip hq).2
      rw [show stepOne f q = stepOne f (q.1, q.2) from rfl, e1, e2, List.length_zipWith, h5, h6]
      exact Nat.min_self _
    refine Model.ext m' _ h4 hwf' ?_ ?_
    · unfold Model.Same at h3 hsame ⊢
      rw [← h3, hsame]
    · rw [h2, ← flat_zip f grads m h]
      rfl

/-- The product of two lists. -/
def inner (a b : List K) : K := (a.zipWith (· * ·) b).sum

/-- The product of the flat gradient with a flat step is the sum over the parameters of the products of their parts. -/
theorem C210_inner (grads steps : List (Option (List K))) (m : Model K) (h : Fits grads m) (h' : Fits steps m) :
    inner ((grads.zip m).map fun q => gradOr q.1 q.2).flatten ((steps.zip m).map fun q => gradOr q.1 q.2).flatten =
      ((grads.zip (steps.zip m)).map fun q => inner (gradOr q.1 q.2.2) (gradOr q.2.1 q.2.2)).sum := by
  induction m generalizing grads steps with
  | nil => cases grads <;> cases steps <;> simp [inner]
  | cons p m ih =>
    obtain ⟨h1, h2⟩ := h
    obtain ⟨h3, h4⟩ := h'
    cases grads with
    | nil => simp at h1
    | cons g grads =>
      cases steps with
      | nil => simp at h3
      | cons s steps =>
        have l1 : (gradOr g p).length = p.data.length := gradOr_length (fun x hx => h2 (g, p) (by simp) x hx)
        have l2 : (gradOr s p).length = p.data.length := gradOr_length (fun x hx => h4 (s, p) (by simp) x hx)
        have e := ih grads steps ⟨by simpa using h1, fun q hq x hx => h2 q (by simp [hq]) x hx⟩ ⟨by simpa using h3, fun q hq x hx => h4 q (by simp [hq]) x hx⟩
        simp only [List.zip_cons_cons, List.map_cons, List.flatten_cons, List.sum_cons]
        rw [← e]
        unfold inner
        rw [List.zipWith_append (by rw [l1, l2]), List.sum_append]

/-- Nothing to differentiate raises. -/
theorem C210_empty : (flatGrad ([] : List (Option (List K))) []).1 = .error .runtime := rfl

/-- A matrix, a parameter that is not used, and a scalar. -/
example : let m : Model ℚ := [⟨[2, 1], [1, 2]⟩, ⟨[1], [7]⟩, ⟨[], [5]⟩]
    flatGrad [some [10, 20], none, some [3]] m = (.ok [10, 20, 0, 3], [none, none, none]) ∧
      (setFlat m [11, 22, 7, 8]).1 = [⟨[2, 1], [11, 22]⟩, ⟨[1], [7]⟩, ⟨[], [8]⟩] ∧ Fits [some [10, 20], none, some [3]] m := by
  refine ⟨by decide +kernel, by decide +kernel, by decide +kernel, ?_⟩
  intro q hq g hg
  simp at hq
  rcases hq with rfl | rfl | rfl <;> cases hg <;> rfl

end Machin.Trpo
