import Verif.Ars.Lemmas

/-! # C52-C54: ARS -/

namespace Machin.Ars

open Spec

/-! ### C52 -/

/-- After pushing any sequence, the count, the mean and (from two observations on) the unbiased variance are those of the
sequence. -/
theorem C52_push (xs : List ℚ) :
    (xs.foldl Stat.push Stat.new).n = xs.length ∧ (xs.foldl Stat.push Stat.new).M = some (mean xs) ∧
    (1 < xs.length → (xs.foldl Stat.push Stat.new).var = some (Spec.var xs)) := by
  have h : ∀ (ys : List ℚ) (s : Stat) (zs : List ℚ), Rep s zs → Rep (ys.foldl Stat.push s) (zs ++ ys) := by
    intro ys
    induction ys with
    | nil => intro s zs h; simpa using h
    | cons y ys ih => intro s zs h; simpa using ih _ _ (h.push y)
  have hr := h xs Stat.new [] Rep.new
  rw [List.nil_append] at hr
  refine ⟨hr.n, hr.M, ?_⟩
  intro hl
  unfold Stat.var
  rw [hr.n, if_pos hl, hr.S]
  rfl

example : ([1, 2, 6].foldl Stat.push Stat.new).M = some 3 ∧ ([1, 2, 6].foldl Stat.push Stat.new).var = some 7 := by
  decide +kernel

/-- A way to build a statistic: start, push, merge. -/
inductive Build
  | new
  | push (b : Build) (x : ℚ)
  | merge (a b : Build)

/-- The statistic built. -/
def Build.stat : Build → Stat
  | .new => Stat.new
  | .push b x => b.stat.push x
  | .merge a b => a.stat.update b.stat

/-- The observations put in. -/
def Build.contents : Build → List ℚ
  | .new => []
  | .push b x => b.contents ++ [x]
  | .merge a b => a.contents ++ b.contents

/-- No merge of two empty statistics. -/
def Build.Proper : Build → Prop
  | .new => True
  | .push b _ => b.Proper
  | .merge a b => a.Proper ∧ b.Proper ∧ a.contents ++ b.contents ≠ []

/-- C52, full statement: however a statistic is built, mean and variance are those of the observations put in, and do not depend
on the order. -/
def C52_full : Prop :=
  ∀ b : Build, b.stat.n = b.contents.length ∧ (b.contents ≠ [] → b.stat.M = some (mean b.contents)) ∧
    (1 < b.contents.length → b.stat.var = some (Spec.var b.contents))

theorem build_rep (b : Build) (h : b.Proper) : Rep b.stat b.contents := by
  induction b with
  | new => exact Rep.new
  | push b x ih => exact (ih h).push x
  | merge a b iha ihb => exact (iha h.1).update (ihb h.2.1) h.2.2

/-- C52 for statistics built without merging two empty ones. Missing: merges of two empty statistics (`C52_violated`). -/
theorem C52_merge_partial (b : Build) (h : b.Proper) :
    b.stat.n = b.contents.length ∧ (b.contents ≠ [] → b.stat.M = some (mean b.contents)) ∧
    (1 < b.contents.length → b.stat.var = some (Spec.var b.contents)) := by
  have hr := build_rep b h
  refine ⟨hr.n, fun _ => hr.M, ?_⟩
  intro hl
  unfold Stat.var
  rw [hr.n, if_pos hl, hr.S]
  rfl

/-- The result does not depend on the order of observations and merges: two ways to build a statistic from the same
observations give the same statistic. -/
theorem C52_order_partial (a b : Build) (ha : a.Proper) (hb : b.Proper) (h : a.contents.Perm b.contents) : a.stat = b.stat :=
  ((build_rep a ha).perm h).unique (build_rep b hb)

example : (Build.merge (.push .new 1) (.push (.push .new 6) 2)).Proper ∧
    (Build.merge (.push .new 1) (.push (.push .new 6) 2)).stat.var = some 7 := by
  refine ⟨⟨trivial, trivial, by simp [Build.contents]⟩, by decide +kernel⟩

/-- Merging two empty statistics makes the mean and the variance `nan`; the variance stays `nan` for ever. -/
theorem C52_violated_forever (xs : List ℚ) : (xs.foldl Stat.push (Stat.new.update Stat.new)).S = none := by
  have h : ∀ (ys : List ℚ) (s : Stat), s.S = none → (ys.foldl Stat.push s).S = none := by
    intro ys
    induction ys with
    | nil => intro s h; exact h
    | cons y ys ih =>
      intro s h
      apply ih
      unfold Stat.push
      simp only
      split
      · exact h
      · rw [h]; cases s.M <;> rfl
  exact h xs _ rfl

theorem C52_violated : ¬ C52_full := by
  intro h
  have := (h (.push (.push (.merge .new .new) 1) 2)).2.2 (by decide)
  revert this
  decide +kernel

/-! ### C53 -/

/-- C53, first half, full statement: after any rounds in which everyone has seen the state key, every member's global
statistic is that of all observations of all members, each counted once. -/
def C53_full : Prop :=
  ∀ (sq : Option ℚ → Option ℚ) (w : Nat) (first : List (List ℚ)) (rest : List (List (List ℚ))), 1 ≤ w →
    (∀ obs ∈ first :: rest, obs.length = w) → (∀ xs ∈ first, xs ≠ []) →
    ∃ fs : List Filter, rounds sq (List.replicate w none) (first :: rest) = .ok (fs.map some) ∧ fs.length = w ∧
      ∀ f ∈ fs, f.rs.n = (first :: rest).flatten.flatten.length ∧ f.rs.M = some (mean (first :: rest).flatten.flatten)

theorem rounds_spec (sq : Option ℚ → Option ℚ) (w : Nat) (hw : 1 ≤ w) (rest : List (List (List ℚ))) (G : List ℚ) (hG : G ≠ [])
    (fs : List Filter) (hl : fs.length = w) (hf : ∀ f ∈ fs, Synced sq G f) (hlen : ∀ obs ∈ rest, obs.length = w) :
    ∃ fs' : List Filter, rounds sq (fs.map some) rest = .ok (fs'.map some) ∧ fs'.length = w ∧
      ∀ f ∈ fs', Synced sq (G ++ (rest.map counted).flatten) f := by
  induction rest generalizing G fs with
  | nil => exact ⟨fs, rfl, hl, by simpa using hf⟩
  | cons obs rest ih =>
    have hk : ∀ (gs : List Filter) (os : List (List ℚ)), os.length = gs.length →
        List.Forall₂ (fun (m : Option Filter) (xs : List ℚ) => m ≠ none ∨ xs ≠ []) (gs.map some) os := by
      intro gs
      induction gs with
      | nil => intro os h; simp at h; subst h; exact .nil
      | cons g gs ih =>
        intro os h
        cases os with
        | nil => simp at h
        | cons o os => exact .cons (Or.inl (by simp)) (ih os (by simpa using h))
    obtain ⟨fs', r1, r2, r3⟩ := round_spec sq G (fs.map some) obs (by rw [hlen obs (by simp), List.length_map, hl])
      (by intro h; simp at h; subst h; simp at hl; omega)
      (by
        intro m hm
        obtain ⟨f, hf', rfl⟩ := List.mem_map.mp hm
        exact ⟨(hf f hf').1, (hf f hf').2.1⟩)
      (hk fs obs (by rw [hlen obs (by simp), hl])) (Or.inl hG)
    obtain ⟨fs'', s1, s2, s3⟩ := ih (G ++ counted obs) (by simp [hG]) fs' (by rw [r2, List.length_map, hl]) r3
      (fun o ho => hlen o (by simp [ho]))
    refine ⟨fs'', ?_, s2, ?_⟩
    · simp only [rounds, r1, s1]
    · intro f hf
      have := s3 f hf
      simpa using this

theorem all_rounds (sq : Option ℚ → Option ℚ) (w : Nat) (first : List (List ℚ)) (rest : List (List (List ℚ))) (hw : 1 ≤ w)
    (hlen : ∀ obs ∈ first :: rest, obs.length = w) (hne : ∀ xs ∈ first, xs ≠ []) :
    ∃ fs : List Filter, rounds sq (List.replicate w none) (first :: rest) = .ok (fs.map some) ∧ fs.length = w ∧
      ∀ f ∈ fs, Synced sq (((first :: rest).map counted).flatten) f := by
  have hk : ∀ (os : List (List ℚ)) (w : Nat), os.length = w → (∀ xs ∈ os, xs ≠ []) →
      List.Forall₂ (fun (m : Option Filter) (xs : List ℚ) => m ≠ none ∨ xs ≠ []) (List.replicate w none) os := by
    intro os
    induction os with
    | nil => intro w h _; simp at h; subst h; exact .nil
    | cons o os ih =>
      intro w h hne
      cases w with
      | zero => simp at h
      | succ w => exact .cons (Or.inr (hne o (by simp))) (ih w (by simpa using h) (fun x hx => hne x (by simp [hx])))
  have hl := hlen first (by simp)
  have hhead : first.headD [] ≠ [] := by
    cases first with
    | nil => simp at hl; omega
    | cons o os => exact hne o (by simp)
  obtain ⟨fs, r1, r2, r3⟩ := round_spec sq [] (List.replicate w none) first (by simp [hl])
    (by intro h; simp at h; omega)
    (by
      intro m hm
      have := List.eq_of_mem_replicate hm
      subst this
      exact ⟨Rep.new, Rep.new⟩)
    (hk first w hl hne) (Or.inr hhead)
  rw [List.nil_append] at r3
  obtain ⟨fs', s1, s2, s3⟩ := rounds_spec sq w hw rest (counted first) (by simp [counted]; intro h; exact absurd h (by simpa using hhead))
    fs (by simpa using r2) r3 (fun o ho => hlen o (by simp [ho]))
  refine ⟨fs', ?_, s2, ?_⟩
  · simp only [rounds, r1, s1]
  · intro f hf
    simpa using s3 f hf

/-- What the statistics are after any rounds: those of all observations of all members with those of the manager (member 0)
counted twice; all members agree and start the next round with an empty local statistic. Missing: counting each observation
once, which fails (`C53_violated`). -/
theorem C53_counted_partial (sq : Option ℚ → Option ℚ) (w : Nat) (first : List (List ℚ)) (rest : List (List (List ℚ)))
    (hw : 1 ≤ w) (hlen : ∀ obs ∈ first :: rest, obs.length = w) (hne : ∀ xs ∈ first, xs ≠ []) :
    ∃ fs : List Filter, rounds sq (List.replicate w none) (first :: rest) = .ok (fs.map some) ∧ fs.length = w ∧
      ∀ f ∈ fs,
        f.rs.n = (((first :: rest).map fun obs => obs.headD [] ++ obs.flatten).flatten).length ∧
        f.rs.M = some (mean (((first :: rest).map fun obs => obs.headD [] ++ obs.flatten).flatten)) ∧
        f.rs.var = some (Spec.var (((first :: rest).map fun obs => obs.headD [] ++ obs.flatten).flatten)) ∧
        f.rsLocal = Stat.new := by
  obtain ⟨fs, h1, h2, h3⟩ := all_rounds sq w first rest hw hlen hne
  refine ⟨fs, h1, h2, ?_⟩
  intro f hf
  obtain ⟨r, l, -, -⟩ := h3 f hf
  refine ⟨r.n, r.M, ?_, l.unique Rep.new⟩
  have hlong : 1 < f.rs.n := by
    rw [r.n]
    cases first with
    | nil => have := hlen [] (by simp); simp at this; omega
    | cons o os =>
      have := List.length_pos_iff.mpr (hne o (by simp))
      simp [counted]
      omega
  unfold Stat.var
  rw [if_pos hlong, r.n, r.S]
  rfl

/-- The number of observations in the statistics is too large in every run, by the number of the manager's observations. -/
theorem C53_violated_always (sq : Option ℚ → Option ℚ) (w : Nat) (first : List (List ℚ)) (rest : List (List (List ℚ)))
    (hw : 1 ≤ w) (hlen : ∀ obs ∈ first :: rest, obs.length = w) (hne : ∀ xs ∈ first, xs ≠ []) :
    ∃ fs : List Filter, rounds sq (List.replicate w none) (first :: rest) = .ok (fs.map some) ∧ fs.length = w ∧
      ∀ f ∈ fs, (first :: rest).flatten.flatten.length < f.rs.n := by
  obtain ⟨fs, h1, h2, h3⟩ := C53_counted_partial sq w first rest hw hlen hne
  refine ⟨fs, h1, h2, ?_⟩
  intro f hf
  rw [(h3 f hf).1]
  have hsum : ∀ R : List (List (List ℚ)),
      ((R.map fun obs => obs.headD [] ++ obs.flatten).flatten).length = (R.map fun obs => (obs.headD []).length).sum + R.flatten.flatten.length := by
    intro R
    induction R with
    | nil => rfl
    | cons o R ih =>
      rw [List.map_cons, List.flatten_cons, List.length_append, ih, List.map_cons, List.sum_cons, List.flatten_cons,
        List.flatten_append, List.length_append, List.length_append]
      omega
  rw [hsum]
  cases first with
  | nil => have := hlen [] (by simp); simp at this; omega
  | cons o os =>
    have := List.length_pos_iff.mpr (hne o (by simp))
    simp only [List.map_cons, List.headD_cons, List.sum_cons]
    omega

theorem C53_violated : ¬ C53_full := by
  intro h
  obtain ⟨fs, h1, h2, h3⟩ := h id 1 [[1]] [] (by decide) (by simp) (by simp)
  obtain ⟨fs', g1, g2, g3⟩ := C53_violated_always id 1 [[1]] [] (by decide) (by simp) (by simp)
  rw [h1] at g1
  have : fs = fs' := List.map_injective_iff.mpr (Option.some_injective _) (by injection g1)
  subst this
  cases fs with
  | nil => simp at h2
  | cons f fs =>
    have a := (h3 f (by simp)).1
    have b := g3 f (by simp)
    omega

/-- The manager observes 1 and 2, the worker 3: mean 9/5 instead of 2. -/
example : ∃ fs, rounds id [none, none] [[[1, 2], [3]]] = .ok fs ∧
    fs.map (fun f => (f.getD Filter.new).rs.M) = [some (9 / 5), some (9 / 5)] := by
  refine ⟨_, rfl, by decide +kernel⟩

/-- If a member has not seen the state key (for instance a worker without rollouts) but the manager has, `update()` raises
`KeyError` in the manager. -/
theorem C53_violated_idle_member (sq : Option ℚ → Option ℚ) (m : Filter) (members : List (Option Filter)) (h : none ∈ members) :
    updateFilters sq (some m :: members) = .error .key := by
  unfold updateFilters managerCollect
  simp only [collectAll]
  rw [collectAll_missing _ _ h]

/-- Such workers exist: 5 rollouts and 4 workers. -/
example : localRollouts 5 4 3 = [] ∧ localRollouts 5 4 0 ≠ [] := by decide +kernel

/-- C53, second half, full statement: an observation does not change the mean and the deviation used. -/
def C53_stable_full : Prop :=
  ∀ (f : Filter) (x : ℚ), (f.observe x).meanValue = f.meanValue ∧ (f.observe x).std = f.std

/-- The deviation never changes between synchronisations; the mean does not before the first one. Missing: the mean after the
first synchronisation, which does change (`C53_violated_mean`). -/
theorem C53_stable_partial (xs : List ℚ) (f : Filter) :
    (xs.foldl Filter.observe f).std = f.std ∧ (f.mean ≠ .shared → (xs.foldl Filter.observe f).meanValue = f.meanValue) := by
  induction xs generalizing f with
  | nil => exact ⟨rfl, fun _ => rfl⟩
  | cons x xs ih =>
    obtain ⟨h1, h2⟩ := ih (f.observe x)
    refine ⟨h1, ?_⟩
    intro h
    refine (h2 h).trans ?_
    unfold Filter.meanValue Filter.observe
    cases hm : f.mean with
    | own v => rfl
    | shared => exact absurd hm h

example : Filter.new.mean ≠ .shared := by decide

/-- C53: collecting and synchronising leave the mean and the deviation used as they were, until `apply_stats` is called; then the mean is that of the statistic. -/
theorem C53_carried_partial (sq : Option ℚ → Option ℚ) (f g : Filter) :
    ((f.collect g).meanValue = f.meanValue ∧ (f.collect g).std = f.std) ∧ ((f.sync g).meanValue = f.meanValue ∧ (f.sync g).std = f.std) ∧
    (f.applyStats sq).meanValue = f.rs.M := ⟨⟨rfl, rfl⟩, ⟨rfl, rfl⟩, rfl⟩

/-- A filter that uses the mean 4 still does after synchronising with one whose statistic has the mean 7. -/
example : let f := (Filter.new.observe 4).applyStats id
    let g := (Filter.new.observe 7).applyStats id
    f.meanValue = some 4 ∧ (f.sync g).meanValue = some 4 ∧ ((f.sync g).applyStats id).meanValue = some 7 := by decide +kernel

/-- After a synchronisation every observation different from the mean changes the mean used for normalisation, because the
filter's mean is the tensor that `push` modifies in place. -/
theorem C53_violated_mean (f : Filter) (G : List ℚ) (hG : G ≠ []) (hf : Rep f.rs G) (hs : f.mean = .shared) (x : ℚ)
    (hx : x ≠ mean G) : (f.observe x).meanValue ≠ f.meanValue := by
  have h1 : (f.observe x).meanValue = some (mean (G ++ [x])) := by
    unfold Filter.meanValue Filter.observe
    simp only [hs]
    exact (hf.push x).M
  have h2 : f.meanValue = some (mean G) := by
    unfold Filter.meanValue
    simp only [hs]
    exact hf.M
  rw [h1, h2]
  intro h
  injection h with h
  apply hx
  have e1 := mean_mul (G ++ [x])
  have e2 := mean_mul G
  rw [h] at e1
  simp at e1
  linarith

theorem C53_stable_violated : ¬ C53_stable_full := by
  intro h
  have := (h ⟨⟨1, some 1, some 0⟩, Stat.new, .shared, some 1⟩ 3).1
  revert this
  decide +kernel

/-! ### C54 -/

/-- The lists of the workers, one after the other, are exactly `0, ..., rollout_num - 1`: every rollout has exactly one worker. -/
theorem C54_partition (rolloutNum wNum : Nat) (hw : 1 ≤ wNum) :
    (List.range wNum).flatMap (localRollouts rolloutNum wNum) = List.range rolloutNum := by
  rw [concat_rollouts]
  congr 1
  have : rolloutNum ≤ wNum * segmentLength rolloutNum wNum := by
    unfold segmentLength
    have := Nat.div_add_mod (rolloutNum + wNum - 1) wNum
    have := Nat.mod_lt (rolloutNum + wNum - 1) hw
    omega
  omega

/-- Exactly one worker. -/
theorem C54_exactly_one (rolloutNum wNum r : Nat) (hw : 1 ≤ wNum) (hr : r < rolloutNum) :
    ∃ w, w < wNum ∧ r ∈ localRollouts rolloutNum wNum w ∧
      ∀ w', r ∈ localRollouts rolloutNum wNum w' → w' = w := by
  have h := C54_partition rolloutNum wNum hw
  have hm : r ∈ (List.range wNum).flatMap (localRollouts rolloutNum wNum) := by rw [h]; exact List.mem_range.mpr hr
  obtain ⟨w, hw', hrw⟩ := List.mem_flatMap.mp hm
  refine ⟨w, List.mem_range.mp hw', hrw, ?_⟩
  intro w' hr'
  rw [localRollouts_eq, List.mem_range'_1] at hrw hr'
  generalize segmentLength rolloutNum wNum = s at *
  by_contra hne
  rcases Nat.lt_or_gt_of_ne hne with h | h
  · have : (w' + 1) * s ≤ w * s := Nat.mul_le_mul_right _ h
    rw [Nat.succ_mul] at this
    omega
  · have : (w + 1) * s ≤ w' * s := Nat.mul_le_mul_right _ h
    rw [Nat.succ_mul] at this
    omega

/-- 7 rollouts, 3 workers. -/
example : (List.range 3).map (localRollouts 7 3) = [[0, 1, 2], [3, 4, 5], [6]] := by decide +kernel

/-- No two samplers of a model with `paramNum` parameters share a seed. -/
theorem C54_seeds (sampleSeed paramNum r p r' p' : Nat) (hp : p < paramNum) (hp' : p' < paramNum)
    (h : samplerSeed sampleSeed paramNum r p = samplerSeed sampleSeed paramNum r' p') : r = r' ∧ p = p' := by
  unfold samplerSeed at h
  have h1 : r * paramNum + p = r' * paramNum + p' := by omega
  have a := congrArg (· % paramNum) h1
  simp only [Nat.mul_add_mod_self_right, Nat.mod_eq_of_lt hp, Nat.mod_eq_of_lt hp'] at a
  subst a
  have b : r * paramNum = r' * paramNum := by omega
  exact ⟨Nat.eq_of_mul_eq_mul_right (by omega) b, rfl⟩

example : samplerSeed 123 4 2 3 ≠ samplerSeed 123 4 3 0 := by decide

/-- A sampled slice lies inside the noise block, has the size asked for and can be read again from its index; a slice is found
for every size up to the size of the block and `ValueError` is raised for larger sizes. -/
theorem C54_noise {α : Type} (noise : List α) (draw : Nat → Nat) (hdraw : ∀ n, 0 < n → draw n < n) (size : Nat) :
    (size ≤ noise.length → ∃ idx slice, sample noise draw size = .ok (idx, slice) ∧ idx + size ≤ noise.length ∧
      slice.length = size ∧ slice = get noise idx size) ∧
    (noise.length < size → sample noise draw size = .error .value) := by
  constructor
  · intro h
    have hd := hdraw ((noise.length : Int) - size + 1).toNat (by omega)
    refine ⟨draw ((noise.length : Int) - size + 1).toNat, _, ?_, ?_, ?_, rfl⟩
    · unfold sample randint
      rw [if_neg (by omega)]
      rfl
    · omega
    · simp [get]
      omega
  · intro h
    unfold sample randint
    rw [if_pos (by omega)]

example : (∀ n, 0 < n → (fun n => n - 1) n < n) ∧ sample [1, 2, 3, 4, 5] (fun n => n - 1) 2 = .ok (3, [4, 5]) := by
  exact ⟨fun n h => by simp; omega, by decide⟩

/-- The check of the block size never raises (unless the model has no parameters and the block is empty): the condition of its
second branch implies that of the first. -/
theorem C54_check_never_raises (paramMax noiseSize : Nat) (h : 0 < paramMax) : sizeCheck paramMax noiseSize = none := by
  unfold sizeCheck
  split
  · rfl
  · rw [if_neg (by omega)]

example : sizeCheck 100 10 = none := by decide

end Machin.Ars
