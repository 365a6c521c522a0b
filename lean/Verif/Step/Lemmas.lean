import Verif.Step.Model
import Mathlib.Algebra.Group.Defs

/-! # Lemmas on update programs -/

namespace Machin.Step

variable {N L V O : Type} [DecidableEq N] [DecidableEq L]

/-- Parameters and optimizer states after a step of network `n` along the clipped gradient of the loss `l` at `θ`, if `b`. -/
def after (env : Env N L V O) (b : Bool) (n : N) (l : L) (θ : N → V) (x : (N → V) × (N → O)) : (N → V) × (N → O) :=
  if b then (set x.1 n (env.step n (x.1 n) (env.clip (env.grad l θ n)) (x.2 n)).1, set x.2 n (env.step n (x.1 n) (env.clip (env.grad l θ n)) (x.2 n)).2)
  else x

theorem set_same {A B : Type} [DecidableEq A] (f : A → B) (a : A) (b : B) : set f a b a = b := if_pos rfl

theorem set_other {A B : Type} [DecidableEq A] (f : A → B) {a x : A} (b : B) (h : x ≠ a) : set f a b x = f x := if_neg h

theorem bump_other (version : N → Nat) : ∀ (l : List N) (n : N), n ∉ l → bump version l n = version n := by
  intro l
  induction l generalizing version with
  | nil => intro n _; rfl
  | cons m l ih =>
    intro n h
    simp only [List.mem_cons, not_or] at h
    rw [bump, ih _ n h.2, set_other _ _ h.1]

section
variable [AddMonoid V]

theorem run_append (env : Env N L V O) : ∀ (a b : List (Cmd N L)) (s s1 : St N L V O), run env a s = .ok s1 → run env (a ++ b) s = run env b s1
  | [], b, s, s1, h => by
    simp only [run, Except.ok.injEq] at h
    rw [h]; rfl
  | c :: a, b, s, s1, h => by
    simp only [run, List.cons_append] at h ⊢
    cases hc : exec env s c with
    | error e => rw [hc] at h; cases h
    | ok s2 =>
      rw [hc] at h
      exact run_append env a b s2 s1 h

theorem run_trainIf (env : Env N L V O) (b : Bool) (n : N) (l : L) (hook : Bool) (s : St N L V O) (g : Graph N V) (hg : s.graph l = some g)
    (hver : ∀ m ∈ env.deps l, s.version m = g.version m) (hn : n ∈ env.deps l) :
    ∃ s', run env (trainIf b n l hook) s = .ok s' ∧ (s'.par, s'.opt) = after env b n l g.par (s.par, s.opt) ∧
      (∀ m, m ≠ n → s'.version m = s.version m) ∧ s'.counter = s.counter ∧ s'.graph = s.graph ∧
      s'.calls = s.calls ++ if b then [hook] else [] := by
  cases b with
  | false => exact ⟨s, rfl, rfl, fun _ _ => rfl, rfl, rfl, by simp⟩
  | true =>
    have hall : ((env.deps l).all fun m => decide (s.version m = g.version m)) = true := by
      rw [List.all_eq_true]
      intro m hm
      exact decide_eq_true (hver m hm)
    simp only [trainIf, if_true, train, run, exec, hg, hall]
    refine ⟨_, rfl, ?_, ?_, rfl, rfl, rfl⟩
    · simp [after, set, hn]
    · intro m hm
      exact bump_other _ _ _ (by simp [hm])

/-- Parameters after the block of the target networks. -/
def moved (env : Env N L V O) (sch : Scheme) (tick b : Bool) (counter : Nat) (pairs : List (N × N)) (par : N → V) : N → V :=
  if b then
    match sch with
    | .rate => follow env.mix par pairs
    | .steps k => if (if tick then counter + 1 else counter) % k = 0 then follow (fun _ x => x) par pairs else par
    | .neither => par
  else par

theorem run_targets (env : Env N L V O) (sch : Scheme) (tick b : Bool) (pairs : List (N × N)) (s : St N L V O)
    (h : b = true → sch ≠ .neither ∧ sch ≠ .steps 0) :
    ∃ s', run env (if b then [.targets sch tick pairs] else []) s = .ok s' ∧ s'.par = moved env sch tick b s.counter pairs s.par ∧ s'.opt = s.opt ∧
      s'.graph = s.graph ∧ s'.calls = s.calls ∧ (∀ m, m ∉ pairs.map (·.1) → s'.version m = s.version m) ∧
      s'.counter = if b = true ∧ tick = true ∧ sch ≠ .rate then s.counter + 1 else s.counter := by
  cases b with
  | false => exact ⟨s, rfl, rfl, rfl, rfl, rfl, fun _ _ => rfl, by simp⟩
  | true =>
    obtain ⟨h1, h2⟩ := h rfl
    cases sch with
    | neither => exact absurd rfl h1
    | rate =>
      simp only [if_true, run, exec]
      exact ⟨_, rfl, by simp [moved], by simp, by simp, by simp, fun m hm => by simp [bump_other _ _ _ hm], by simp⟩
    | steps k =>
      cases k with
      | zero => exact absurd rfl h2
      | succ k =>
        cases tick with
        | true =>
          by_cases hc : (s.counter + 1) % (k + 1) = 0
          · have : run env [Cmd.targets (.steps (k + 1)) true pairs] s = .ok { s with
                counter := s.counter + 1, par := follow (fun _ x => x) s.par pairs, version := bump s.version (pairs.map (·.1)) } := by
              simp [run, exec, hc]
            exact ⟨_, this, by simp [moved, hc], rfl, rfl, rfl, fun m hm => bump_other _ _ _ hm, by simp⟩
          · have : run env [Cmd.targets (.steps (k + 1)) true pairs] s = .ok { s with counter := s.counter + 1 } := by simp [run, exec, hc]
            exact ⟨_, this, by simp [moved, hc], rfl, rfl, rfl, fun m hm => rfl, by simp⟩
        | false =>
          by_cases hc : s.counter % (k + 1) = 0
          · have : run env [Cmd.targets (.steps (k + 1)) false pairs] s = .ok { s with
                par := follow (fun _ x => x) s.par pairs, version := bump s.version (pairs.map (·.1)) } := by
              simp [run, exec, hc]
            exact ⟨_, this, by simp [moved, hc], rfl, rfl, rfl, fun m hm => bump_other _ _ _ hm, by simp⟩
          · have : run env [Cmd.targets (.steps (k + 1)) false pairs] s = .ok s := by simp [run, exec, hc]
            exact ⟨_, this, by simp [moved, hc], rfl, rfl, rfl, fun m hm => rfl, by simp⟩

end

end Machin.Step
