import Verif.Step.Lemmas

/-! # Lemmas on update programs run by a pool -/

namespace Machin.Step

variable {N L V O : Type} [DecidableEq N] [DecidableEq L]

/-- Who owns networks and losses. -/
structure Owner (N L : Type) where
  net : N → Nat
  loss : L → Nat

/-- All networks and losses of a statement belong to `a`, and it leaves the counter alone. -/
def Owned (w : Owner N L) (a : Nat) : Cmd N L → Prop
  | .forward l => w.loss l = a
  | .forwardFrom l l' => w.loss l = a ∧ w.loss l' = a
  | .zero n => w.net n = a
  | .backward l _ => w.loss l = a
  | .clip n => w.net n = a
  | .step n => w.net n = a
  | .stepOf o n => w.net o = a ∧ w.net n = a
  | .clamp n => w.net n = a
  | .targets _ tick pairs => tick = false ∧ ∀ p ∈ pairs, w.net p.1 = a ∧ w.net p.2 = a

/-- The losses of an owner are differentiated through networks of the owner only, and their gradients depend on parameters of the owner only. -/
structure Local (env : Env N L V O) (w : Owner N L) : Prop where
  deps : ∀ l, ∀ n ∈ env.deps l, w.net n = w.loss l
  grad : ∀ l θ θ' n, (∀ m, w.net m = w.loss l → θ m = θ' m) → w.net n = w.loss l → env.grad l θ n = env.grad l θ' n

/-- Graphs that agree in what belongs to `a`. -/
def AgreeG (w : Owner N L) (a : Nat) : Option (Graph N V) → Option (Graph N V) → Prop
  | none, none => True
  | some g, some g' => ∀ n, w.net n = a → g.par n = g'.par n ∧ g.version n = g'.version n
  | _, _ => False

/-- States that agree in what belongs to `a`. -/
structure Agree (w : Owner N L) (a : Nat) (s s' : St N L V O) : Prop where
  par : ∀ n, w.net n = a → s.par n = s'.par n
  grad : ∀ n, w.net n = a → s.grad n = s'.grad n
  opt : ∀ n, w.net n = a → s.opt n = s'.opt n
  version : ∀ n, w.net n = a → s.version n = s'.version n
  graph : ∀ l, w.loss l = a → AgreeG w a (s.graph l) (s'.graph l)
  counter : s.counter = s'.counter

/-- Results that agree. -/
def AgreeR (w : Owner N L) (a : Nat) : Except Err (St N L V O) → Except Err (St N L V O) → Prop
  | .ok s, .ok s' => Agree w a s s'
  | .error e, .error e' => e = e'
  | _, _ => False

theorem AgreeG.refl (w : Owner N L) (a : Nat) (g : Option (Graph N V)) : AgreeG w a g g := by
  cases g with
  | none => trivial
  | some g => exact fun _ _ => ⟨rfl, rfl⟩

theorem AgreeG.trans {w : Owner N L} {a : Nat} {g g' g'' : Option (Graph N V)} (h : AgreeG w a g g') (h' : AgreeG w a g' g'') : AgreeG w a g g'' := by
  cases g <;> cases g' <;> cases g'' <;> simp only [AgreeG] at *
  exact fun n hn => ⟨(h n hn).1.trans (h' n hn).1, (h n hn).2.trans (h' n hn).2⟩

theorem Agree.refl (w : Owner N L) (a : Nat) (s : St N L V O) : Agree w a s s :=
  ⟨fun _ _ => rfl, fun _ _ => rfl, fun _ _ => rfl, fun _ _ => rfl, fun _ _ => AgreeG.refl w a _, rfl⟩

theorem Agree.trans {w : Owner N L} {a : Nat} {s s' s'' : St N L V O} (h : Agree w a s s') (h' : Agree w a s' s'') : Agree w a s s'' :=
  ⟨fun n hn => (h.par n hn).trans (h'.par n hn), fun n hn => (h.grad n hn).trans (h'.grad n hn), fun n hn => (h.opt n hn).trans (h'.opt n hn),
    fun n hn => (h.version n hn).trans (h'.version n hn), fun l hl => (h.graph l hl).trans (h'.graph l hl), h.counter.trans h'.counter⟩

theorem set_agree {A B : Type} [DecidableEq A] {f g : A → B} {p : A → Prop} (h : ∀ x, p x → f x = g x) (a : A) {b b' : B} (hb : b = b') :
    ∀ x, p x → set f a b x = set g a b' x := by
  intro x hx
  unfold set
  split
  · exact hb
  · exact h x hx

theorem bump_agree {w : Owner N L} {a : Nat} : ∀ (l : List N) (v v' : N → Nat), (∀ n, w.net n = a → v n = v' n) →
    ∀ n, w.net n = a → bump v l n = bump v' l n
  | [], _, _, h => h
  | m :: l, v, v', h => bump_agree l _ _ (by
      intro x hx
      unfold set
      split
      · next e => rw [← e, h x hx]
      · exact h x hx)

theorem follow_agree {w : Owner N L} {a : Nat} (f : V → V → V) : ∀ (l : List (N × N)) (v v' : N → V), (∀ p ∈ l, w.net p.1 = a ∧ w.net p.2 = a) →
    (∀ n, w.net n = a → v n = v' n) → ∀ n, w.net n = a → follow f v l n = follow f v' l n
  | [], _, _, _, h => h
  | p :: l, v, v', hp, h => follow_agree f l _ _ (fun q hq => hp q (by simp [hq])) (set_agree h p.1
      (by rw [h _ (hp p (by simp)).1, h _ (hp p (by simp)).2]))

theorem follow_frame {w : Owner N L} {a b : Nat} (hab : b ≠ a) (f : V → V → V) : ∀ (l : List (N × N)) (v : N → V), (∀ p ∈ l, w.net p.1 = a) →
    ∀ n, w.net n = b → v n = follow f v l n
  | [], _, _ => fun _ _ => rfl
  | p :: l, v, hp => fun n hn => by
    rw [follow, ← follow_frame hab f l _ (fun q hq => hp q (by simp [hq])) n hn, set_other]
    rintro rfl
    exact hab (hn.symm.trans (hp p (by simp)))

variable [AddMonoid V]

/-- What a statement of `a` does depends only on what belongs to `a`. -/
theorem exec_local {env : Env N L V O} {w : Owner N L} (hl : Local env w) {a : Nat} {c : Cmd N L} (hc : Owned w a c) {s s' : St N L V O}
    (h : Agree w a s s') : AgreeR w a (exec env s c) (exec env s' c) := by
  cases c with
  | forward l =>
    refine ⟨h.par, h.grad, h.opt, h.version, ?_, h.counter⟩
    intro m hm
    simp only [set]
    split
    · exact fun n hn => ⟨h.par n hn, h.version n hn⟩
    · exact h.graph m hm
  | forwardFrom l l' =>
    have hg := h.graph l' hc.2
    simp only [exec]
    cases e : s.graph l' <;> cases e' : s'.graph l' <;> rw [e, e'] at hg
    · rfl
    · exact hg.elim
    · exact hg.elim
    · refine ⟨h.par, h.grad, h.opt, h.version, ?_, h.counter⟩
      intro m hm
      simp only [set]
      split
      · intro n hn
        refine ⟨?_, h.version n hn⟩
        show (if n ∈ env.deps l then s.par n else _) = if n ∈ env.deps l then s'.par n else _
        rw [h.par n hn, (hg n hn).1]
      · exact h.graph m hm
  | zero n => exact ⟨h.par, set_agree h.grad n rfl, h.opt, h.version, h.graph, h.counter⟩
  | backward l hook =>
    have hc : w.loss l = a := hc
    have hg := h.graph l hc
    simp only [exec]
    cases e : s.graph l <;> cases e' : s'.graph l <;> rw [e, e'] at hg
    · rfl
    · exact hg.elim
    · exact hg.elim
    · next g g' =>
      simp only [AgreeG] at hg
      have hall : ((env.deps l).all fun n => decide (s.version n = g.version n)) = (env.deps l).all fun n => decide (s'.version n = g'.version n) := by
        rw [Bool.eq_iff_iff, List.all_eq_true, List.all_eq_true]
        constructor
        · intro hh n hn
          have hn' := (hl.deps l n hn).trans hc
          have := hh n hn
          rwa [h.version n hn', (hg n hn').2] at this
        · intro hh n hn
          have hn' := (hl.deps l n hn).trans hc
          have := hh n hn
          rwa [← h.version n hn', ← (hg n hn').2] at this
      simp only [hall]
      split
      · refine ⟨h.par, ?_, h.opt, h.version, h.graph, h.counter⟩
        intro n hn
        show (if n ∈ env.deps l then s.grad n + env.grad l g.par n else s.grad n) = if n ∈ env.deps l then s'.grad n + env.grad l g'.par n else s'.grad n
        rw [h.grad n hn, hl.grad l g.par g'.par n (fun m hm => (hg m (hm.trans hc)).1) (hn.trans hc.symm)]
      · rfl
  | clip n => exact ⟨h.par, set_agree h.grad n (by rw [h.grad n hc]), h.opt, h.version, h.graph, h.counter⟩
  | step n =>
    have e : env.step n (s.par n) (s.grad n) (s.opt n) = env.step n (s'.par n) (s'.grad n) (s'.opt n) := by rw [h.par n hc, h.grad n hc, h.opt n hc]
    exact ⟨set_agree h.par n (by rw [e]), h.grad, set_agree h.opt n (by rw [e]), bump_agree _ _ _ h.version, h.graph, h.counter⟩
  | stepOf o n =>
    have e : env.step o (s.par n) (s.grad n) (s.opt o) = env.step o (s'.par n) (s'.grad n) (s'.opt o) := by rw [h.par n hc.2, h.grad n hc.2, h.opt o hc.1]
    exact ⟨set_agree h.par n (by rw [e]), h.grad, set_agree h.opt o (by rw [e]), bump_agree _ _ _ h.version, h.graph, h.counter⟩
  | clamp n => exact ⟨set_agree h.par n (by rw [h.par n hc]), h.grad, h.opt, bump_agree _ _ _ h.version, h.graph, h.counter⟩
  | targets sch tick pairs =>
    obtain ⟨rfl, hp⟩ := hc
    cases sch with
    | rate => exact ⟨follow_agree _ _ _ _ hp h.par, h.grad, h.opt, bump_agree _ _ _ h.version, h.graph, h.counter⟩
    | neither => rfl
    | steps k =>
      cases k with
      | zero => rfl
      | succ k =>
        simp only [exec, Bool.false_eq_true, false_and, if_false, h.counter]
        split
        · exact ⟨follow_agree _ _ _ _ hp h.par, h.grad, h.opt, bump_agree _ _ _ h.version, h.graph, rfl⟩
        · exact h

/-- A statement of `a` leaves alone what belongs to others. -/
theorem exec_frame {env : Env N L V O} {w : Owner N L} (hl : Local env w) {a b : Nat} (hab : b ≠ a) {c : Cmd N L} (hc : Owned w a c) {s s' : St N L V O}
    (h : exec env s c = .ok s') : Agree w b s s' := by
  have hset : ∀ {B : Type} (f : N → B) (n : N) (x : B), w.net n = a → ∀ m, w.net m = b → f m = set f n x m := by
    intro B f n x hn m hm
    rw [set_other]
    rintro rfl
    exact hab (hm.symm.trans hn)
  have hbump : ∀ (l : List N), (∀ n ∈ l, w.net n = a) → ∀ m, w.net m = b → s.version m = bump s.version l m := by
    intro l hl m hm
    rw [bump_other]
    intro hin
    exact hab (hm.symm.trans (hl m hin))
  have hgraph : ∀ l (g : Option (Graph N V)), w.loss l = a → ∀ m, w.loss m = b → AgreeG w b (s.graph m) (set s.graph l g m) := by
    intro l g hla m hm
    rw [set_other]
    · exact AgreeG.refl w b _
    · rintro rfl
      exact hab (hm.symm.trans hla)
  have r := Agree.refl w b s
  cases c with
  | forward l =>
    simp only [exec, Except.ok.injEq] at h
    subst h
    exact ⟨r.par, r.grad, r.opt, r.version, hgraph l _ hc, rfl⟩
  | forwardFrom l l' =>
    cases hg : s.graph l' with
    | none => simp [exec, hg] at h
    | some g =>
      simp only [exec, hg, Except.ok.injEq] at h
      subst h
      exact ⟨r.par, r.grad, r.opt, r.version, hgraph l _ hc.1, rfl⟩
  | zero n =>
    simp only [exec, Except.ok.injEq] at h
    subst h
    exact ⟨r.par, hset _ n _ hc, r.opt, r.version, r.graph, rfl⟩
  | backward l hook =>
    have hc : w.loss l = a := hc
    cases hg : s.graph l with
    | none => simp [exec, hg] at h
    | some g =>
      simp only [exec, hg] at h
      split at h
      · simp only [Except.ok.injEq] at h
        subst h
        refine ⟨r.par, ?_, r.opt, r.version, r.graph, rfl⟩
        intro n hn
        show s.grad n = if n ∈ env.deps l then _ else s.grad n
        rw [if_neg]
        intro hin
        exact hab (hn.symm.trans ((hl.deps l n hin).trans hc))
      · cases h
  | clip n =>
    simp only [exec, Except.ok.injEq] at h
    subst h
    exact ⟨r.par, hset _ n _ hc, r.opt, r.version, r.graph, rfl⟩
  | step n =>
    have hc : w.net n = a := hc
    simp only [exec, Except.ok.injEq] at h
    subst h
    exact ⟨hset _ n _ hc, r.grad, hset _ n _ hc, hbump _ (by simp [hc]), r.graph, rfl⟩
  | stepOf o n =>
    simp only [exec, Except.ok.injEq] at h
    subst h
    exact ⟨hset _ n _ hc.2, r.grad, hset _ o _ hc.1, hbump _ (by simp [hc.2]), r.graph, rfl⟩
  | clamp n =>
    have hc : w.net n = a := hc
    simp only [exec, Except.ok.injEq] at h
    subst h
    exact ⟨hset _ n _ hc, r.grad, r.opt, hbump _ (by simp [hc]), r.graph, rfl⟩
  | targets sch tick pairs =>
    obtain ⟨rfl, hp⟩ := hc
    have hb := hbump (pairs.map (·.1)) (by
      intro n hn
      obtain ⟨p, hp', rfl⟩ := List.mem_map.mp hn
      exact (hp p hp').1)
    cases sch with
    | rate =>
      simp only [exec, Bool.false_eq_true, false_and, if_false, Except.ok.injEq] at h
      subst h
      exact ⟨follow_frame hab _ _ _ (fun p hp' => (hp p hp').1), r.grad, r.opt, hb, r.graph, rfl⟩
    | neither => simp [exec] at h
    | steps k =>
      cases k with
      | zero => simp [exec] at h
      | succ k =>
        simp only [exec, Bool.false_eq_true, false_and, if_false] at h
        split at h
        · simp only [Except.ok.injEq] at h
          subst h
          exact ⟨follow_frame hab _ _ _ (fun p hp' => (hp p hp').1), r.grad, r.opt, hb, r.graph, rfl⟩
        · simp only [Except.ok.injEq] at h
          subst h
          exact r

/-- The pool, task by task: every task is as far as it would be alone. -/
theorem pool_solo {env : Env N L V O} {w : Owner N L} (hl : Local env w) (s0 : St N L V O) (ts0 : List (List (Cmd N L))) :
    ∀ (sched : List Nat) (ts : List (List (Cmd N L))) (s : St N L V O), ts.length = ts0.length →
      (∀ i (h : i < ts.length), (∀ c ∈ ts[i], Owned w i c) ∧ ∃ si, Agree w i s si ∧ run env ts[i] si = run env (ts0.getD i []) s0) →
      match pool env sched ts s with
      | .ok (ts', s') => ts'.length = ts0.length ∧ ∀ i (h : i < ts'.length), ∃ si, Agree w i s' si ∧ run env ts'[i] si = run env (ts0.getD i []) s0
      | .error e => ∃ i, i < ts0.length ∧ run env (ts0.getD i []) s0 = .error e
  | [], ts, s, hlen, hinv => ⟨hlen, fun i h => (hinv i h).2⟩
  | i :: sched, ts, s, hlen, hinv => by
    simp only [pool]
    cases hi : ts[i]? with
    | none => exact pool_solo hl s0 ts0 sched ts s hlen hinv
    | some t =>
      cases t with
      | nil => exact pool_solo hl s0 ts0 sched ts s hlen hinv
      | cons c cs =>
        obtain ⟨hlt, hti⟩ := List.getElem?_eq_some_iff.mp hi
        obtain ⟨hown, si, hag, hrun⟩ := hinv i hlt
        rw [hti] at hown hrun
        have hloc := exec_local hl (hown c (by simp)) hag
        simp only [run] at hrun
        cases hs : exec env s c with
        | error e =>
          rw [hs] at hloc
          cases hsi : exec env si c with
          | ok x => rw [hsi] at hloc; exact hloc.elim
          | error e' =>
            rw [hsi] at hloc hrun
            have : e = e' := hloc
            simp only [hs]
            exact ⟨i, by omega, by rw [← hrun, this]⟩
        | ok s1 =>
          rw [hs] at hloc
          cases hsi : exec env si c with
          | error e' => rw [hsi] at hloc; exact hloc.elim
          | ok si1 =>
            rw [hsi] at hloc hrun
            simp only [hs]
            refine pool_solo hl s0 ts0 sched (ts.set i cs) s1 (by simpa using hlen) ?_
            intro j hj
            have hj' : j < ts.length := by simpa using hj
            by_cases hij : i = j
            · subst hij
              simp only [List.getElem_set_self]
              exact ⟨fun d hd => hown d (by simp [hd]), si1, hloc, hrun⟩
            · rw [List.getElem_set_ne hij]
              obtain ⟨hownj, sj, hagj, hrunj⟩ := hinv j hj'
              refine ⟨hownj, sj, ?_, hrunj⟩
              have hf := exec_frame hl (b := j) (fun e => hij e.symm) (hown c (by simp)) hs
              have hsym : Agree w j s1 s := ⟨fun n hn => (hf.par n hn).symm, fun n hn => (hf.grad n hn).symm, fun n hn => (hf.opt n hn).symm,
                fun n hn => (hf.version n hn).symm, fun l hl => by
                  have := hf.graph l hl
                  cases e : s.graph l <;> cases e' : s1.graph l <;> rw [e, e'] at this
                  · trivial
                  · exact this.elim
                  · exact this.elim
                  · exact fun n hn => ⟨(this n hn).1.symm, (this n hn).2.symm⟩, hf.counter.symm⟩
              exact hsym.trans hagj

end Machin.Step
