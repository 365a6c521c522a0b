import Verif.Step.Lemmas
import Verif.Step.Spec

/-! # Lemmas on the training of one or two networks -/

namespace Machin.Step

variable {N L V O : Type} [DecidableEq N] [DecidableEq L]

theorem after_eq (env : Env N L V O) (b : Bool) (n : N) (l : L) (θ : N → V) (s : St N L V O) :
    after env b n l θ (s.par, s.opt) = (set s.par n (trained env s b n l θ), set s.opt n (trainedOpt env s b n l θ)) := by
  have hid : ∀ {B : Type} (g : N → B), set g n (g n) = g := by
    intro B g
    funext x
    unfold set
    split
    · next h => rw [h]
    · rfl
  cases b with
  | false => simp [after, trained, trainedOpt, hid]
  | true => rfl

variable [AddMonoid V]

/-- One loss and the training of one network on it. -/
theorem run_one (env : Env N L V O) (b : Bool) (n : N) (l : L) (hook : Bool) (hn : n ∈ env.deps l) (s : St N L V O) :
    ∃ s', (∀ rest, run env (.forward l :: (trainIf b n l hook ++ rest)) s = run env rest s') ∧
      s'.par = set s.par n (trained env s b n l s.par) ∧ s'.opt = set s.opt n (trainedOpt env s b n l s.par) ∧ s'.counter = s.counter ∧
      s'.calls = s.calls ++ (if b then [hook] else []) ∧ s'.graph = set s.graph l (some ⟨s.par, s.version⟩) ∧
      ∀ m, m ≠ n → s'.version m = s.version m := by
  let s0 : St N L V O := { s with graph := set s.graph l (some ⟨s.par, s.version⟩) }
  obtain ⟨s1, h1, x1, v1, c1, g1, k1⟩ := run_trainIf env b n l hook s0 ⟨s.par, s.version⟩ (by simp [s0, set]) (fun m _ => rfl) hn
  rw [after_eq, Prod.mk.injEq] at x1
  exact ⟨s1, fun rest => run_append env _ rest s0 s1 h1, x1.1, x1.2, c1, k1, g1, v1⟩

/-- Two losses, then the training of a network on each one. -/
theorem run_two (env : Env N L V O) (b1 b2 : Bool) (n1 n2 : N) (l1 l2 : L) (hook : Bool) (hl : l1 ≠ l2) (h1 : n1 ∈ env.deps l1) (h2 : n2 ∈ env.deps l2)
    (h12 : n1 ∉ env.deps l2) (s : St N L V O) :
    ∃ s', (∀ rest, run env (.forward l1 :: .forward l2 :: (trainIf b1 n1 l1 hook ++ (trainIf b2 n2 l2 hook ++ rest))) s = run env rest s') ∧
      s'.par = set (set s.par n1 (trained env s b1 n1 l1 s.par)) n2 (trained env s b2 n2 l2 s.par) ∧
      s'.opt = set (set s.opt n1 (trainedOpt env s b1 n1 l1 s.par)) n2 (trainedOpt env s b2 n2 l2 s.par) ∧ s'.counter = s.counter ∧
      s'.calls = s.calls ++ ((if b1 then [hook] else []) ++ if b2 then [hook] else []) := by
  let s0 : St N L V O := { s with graph := set (set s.graph l1 (some ⟨s.par, s.version⟩)) l2 (some ⟨s.par, s.version⟩) }
  have hne : n2 ≠ n1 := fun e => h12 (e ▸ h2)
  obtain ⟨s1, e1, x1, v1, c1, g1, k1⟩ := run_trainIf env b1 n1 l1 hook s0 ⟨s.par, s.version⟩ (by simp [s0, set, hl]) (fun m _ => rfl) h1
  obtain ⟨s2, e2, x2, -, c2, -, k2⟩ := run_trainIf env b2 n2 l2 hook s1 ⟨s.par, s.version⟩ (by rw [g1]; simp [s0, set])
    (fun m hm => by rw [v1 m (fun e => h12 (e ▸ hm))]) h2
  rw [after_eq, Prod.mk.injEq] at x1 x2
  have t2 : trained env s1 b2 n2 l2 s.par = trained env s b2 n2 l2 s.par := by
    simp only [trained, x1.1, x1.2, set, if_neg hne, s0]
  have o2 : trainedOpt env s1 b2 n2 l2 s.par = trainedOpt env s b2 n2 l2 s.par := by
    simp only [trainedOpt, x1.1, x1.2, set, if_neg hne, s0]
  refine ⟨s2, fun rest => ?_, ?_, ?_, by rw [c2, c1], by rw [k2, k1, List.append_assoc]⟩
  · show run env (trainIf b1 n1 l1 hook ++ (trainIf b2 n2 l2 hook ++ rest)) s0 = _
    rw [run_append env _ _ s0 s1 e1, run_append env _ _ s1 s2 e2]
  · rw [x2.1, x1.1, t2]; rfl
  · rw [x2.2, x1.2, o2]; rfl

end Machin.Step
