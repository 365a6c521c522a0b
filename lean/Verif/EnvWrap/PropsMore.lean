import Verif.EnvWrap.ModelMore
import Verif.EnvWrap.LemmasCall

/-!
# C162: seeds reach their environments; C163: both wrappers render alike; C164: closing ends all workers
-/

namespace Machin.EnvWrap

variable {E S A O X : Type}

/-! ### C162 -/

/-- Full statement for both wrappers: a list of seeds of another size than the number of environments is refused without any effect, with a list of the right size
there is one answer for each environment. -/
def C162_full : Prop :=
  ∀ (E S A O X : Type) (g : Gym E S A O X) (n : Nat) (envs : Nat → E) (seeds : List (Option S)),
    (seeds.length ≠ n →
      (∃ f, (Dummy.new n envs).seed g (.list seeds) = (Dummy.new n envs, .error f)) ∧
      ∀ sched, ∃ f, (Sub.new n envs).seed g (.list seeds) sched = (Sub.new n envs, .fail f)) ∧
    (seeds.length = n → ∀ os, ((Dummy.new n envs).seed g (.list seeds)).2 = .ok os → os.length = n)

theorem seedLoop_all (g : Gym E S A O X) (ans : E → Option S → O) (hx : ∀ e s, (g.seed e s).2 = .ok (ans e s)) (l : List (Nat × Option S)) (d : Dummy E)
    (hn : (l.map fun p => p.1).Nodup) :
    (seedLoop g l d).2 = .ok ((l.filter fun p => g.hasSeed (d.envs p.1)).map fun p => ans (d.envs p.1) p.2) ∧
    (seedLoop g l d).1.n = d.n ∧ (seedLoop g l d).1.terminal = d.terminal ∧
    (∀ i s, (i, s) ∈ l → (seedLoop g l d).1.envs i = if g.hasSeed (d.envs i) then (g.seed (d.envs i) s).1 else d.envs i) ∧
    ∀ i, (∀ s, (i, s) ∉ l) → (seedLoop g l d).1.envs i = d.envs i := by
  induction l generalizing d with
  | nil => exact ⟨rfl, rfl, rfl, by simp, fun _ _ => rfl⟩
  | cons p l ih =>
    obtain ⟨i, s⟩ := p
    simp only [List.map_cons, List.nodup_cons] at hn
    have hni : ∀ t, (i, t) ∉ l := fun t ht => hn.1 (List.mem_map.mpr ⟨(i, t), ht, rfl⟩)
    by_cases hs : g.hasSeed (d.envs i) = true
    · cases hr : g.seed (d.envs i) s with
      | mk e r =>
        have hxr := hx (d.envs i) s
        rw [hr] at hxr
        simp only at hxr
        subst hxr
        obtain ⟨h1, h2, h3, h4, h5⟩ := ih { d with envs := Function.update d.envs i e } hn.2
        have hne : ∀ q ∈ l, q.1 ≠ i := fun q hq h => hn.1 (List.mem_map.mpr ⟨q, hq, h⟩)
        have hcong : ((l.filter fun p => g.hasSeed (Function.update d.envs i e p.1)).map fun p => ans (Function.update d.envs i e p.1) p.2) =
            (l.filter fun p => g.hasSeed (d.envs p.1)).map fun p => ans (d.envs p.1) p.2 := by
          have hf : (l.filter fun p => g.hasSeed (Function.update d.envs i e p.1)) = l.filter fun p => g.hasSeed (d.envs p.1) := by
            apply List.filter_congr
            intro q hq
            rw [Function.update_of_ne (hne q hq)]
          rw [hf]
          apply List.map_congr_left
          intro q hq
          rw [Function.update_of_ne (hne q (List.mem_of_mem_filter hq))]
        have hd : seedLoop g ((i, s) :: l) d = ((seedLoop g l { d with envs := Function.update d.envs i e }).1,
            .ok (ans (d.envs i) s :: ((l.filter fun p => g.hasSeed (d.envs p.1)).map fun p => ans (d.envs p.1) p.2))) := by
          rw [seedLoop, if_pos hs, hr]
          simp only
          rw [hcong] at h1
          revert h1
          generalize seedLoop g l { d with envs := Function.update d.envs i e } = q
          obtain ⟨a, b⟩ := q
          rintro rfl
          rfl
        rw [hd]
        refine ⟨by simp [hs], h2, h3, ?_, ?_⟩
        · intro k t hk
          rcases List.mem_cons.mp hk with h | h
          · obtain ⟨rfl, rfl⟩ := Prod.mk.inj h
            simp only [hs, if_true, hr]
            rw [h5 k hni]
            simp
          · have hki : k ≠ i := fun hh => hni t (hh ▸ h)
            rw [h4 k t h]
            simp [Function.update_of_ne hki]
        · intro k hk
          have hki : k ≠ i := fun hh => hk s (by simp [hh])
          rw [h5 k fun t ht => hk t (List.mem_cons_of_mem _ ht)]
          simp [Function.update_of_ne hki]
    · obtain ⟨h1, h2, h3, h4, h5⟩ := ih d hn.2
      have hd : seedLoop g ((i, s) :: l) d = seedLoop g l d := by rw [seedLoop, if_neg hs]
      rw [hd]
      refine ⟨by simp [hs, h1], h2, h3, ?_, ?_⟩
      · intro k t hk
        rcases List.mem_cons.mp hk with h | h
        · obtain ⟨rfl, rfl⟩ := Prod.mk.inj h
          rw [h5 k hni]
          simp [hs]
        · exact h4 k t h
      · intro k hk
        exact h5 k fun t ht => hk t (List.mem_cons_of_mem _ ht)

theorem zip_fst_prefix {α β : Type} (xs : List α) (l : List β) : (xs.zip l).map (fun p => p.1) <+: xs := by
  induction xs generalizing l with
  | nil => simp
  | cons x xs ih =>
    cases l with
    | nil => simp
    | cons y l => simpa using ih l

theorem zip_range_fst (n : Nat) (l : List (Option S)) : (((List.range n).zip l).map fun p => p.1).Nodup :=
  (zip_fst_prefix (List.range n) l).sublist.nodup List.nodup_range

theorem mem_zip_range (n : Nat) (l : List (Option S)) (i : Nat) (s : Option S) : (i, s) ∈ (List.range n).zip l ↔ i < n ∧ l[i]? = some s := by
  rw [List.mem_iff_getElem?]
  constructor
  · rintro ⟨k, hk⟩
    rw [List.getElem?_zip_eq_some] at hk
    obtain ⟨h1, h2⟩ := hk
    obtain ⟨hk, e⟩ := List.getElem?_eq_some_iff.mp h1
    simp only [List.length_range] at hk
    simp only [List.getElem_range] at e
    subst e
    exact ⟨hk, h2⟩
  · rintro ⟨h1, h2⟩
    refine ⟨i, ?_⟩
    rw [List.getElem?_zip_eq_some]
    exact ⟨List.getElem?_range h1, h2⟩

/-- What the wrapper without processes does, for lists of any size: environment `i` gets the seed at position `i`, if there is one and the environment can be
seeded, all others keep their state; the answers are those of the environments that were seeded. -/
theorem C162_dummy_exact_partial (g : Gym E S A O X) (ans : E → Option S → O) (hx : ∀ e s, (g.seed e s).2 = .ok (ans e s)) (d : Dummy E) (arg : SeedArg S) :
    (∀ i s, i < d.n → (arg.toList d.n)[i]? = some s → g.hasSeed (d.envs i) = true → (d.seed g arg).1.envs i = (g.seed (d.envs i) s).1) ∧
    (∀ i, d.n ≤ i ∨ (arg.toList d.n)[i]? = none ∨ g.hasSeed (d.envs i) = false → (d.seed g arg).1.envs i = d.envs i) ∧
    (d.seed g arg).2 = .ok ((((List.range d.n).zip (arg.toList d.n)).filter fun p => g.hasSeed (d.envs p.1)).map fun p => ans (d.envs p.1) p.2) ∧
    (d.seed g arg).1.n = d.n ∧ (d.seed g arg).1.terminal = d.terminal := by
  obtain ⟨h1, h2, h3, h4, h5⟩ := seedLoop_all g ans hx ((List.range d.n).zip (arg.toList d.n)) d (zip_range_fst _ _)
  refine ⟨?_, ?_, h1, h2, h3⟩
  · intro i s hi hs hh
    have := h4 i s ((mem_zip_range _ _ _ _).mpr ⟨hi, hs⟩)
    rw [if_pos hh] at this
    exact this
  · intro i hi
    by_cases hm : ∃ s, (i, s) ∈ (List.range d.n).zip (arg.toList d.n)
    · obtain ⟨s, hs⟩ := hm
      obtain ⟨a, b⟩ := (mem_zip_range _ _ _ _).mp hs
      have hf : g.hasSeed (d.envs i) = false := by
        rcases hi with h | h | h
        · omega
        · rw [h] at b; cases b
        · exact h
      have := h4 i s hs
      rw [if_neg (by simp [hf])] at this
      exact this
    · exact h5 i fun s hs => hm ⟨s, hs⟩

/-- With environments that can all be seeded, and a number, `None` or a list of the right size: every environment gets its seed and answers. -/
theorem C162_dummy_partial (g : Gym E S A O X) (ans : E → Option S → O) (hx : ∀ e s, (g.seed e s).2 = .ok (ans e s)) (d : Dummy E) (arg : SeedArg S)
    (hs : ∀ i, i < d.n → g.hasSeed (d.envs i) = true) (hl : (arg.toList d.n).length = d.n) :
    ∃ os, (d.seed g arg).2 = .ok os ∧ os.length = d.n ∧
      ∀ i s, i < d.n → (arg.toList d.n)[i]? = some s → os[i]? = some (ans (d.envs i) s) ∧ (d.seed g arg).1.envs i = (g.seed (d.envs i) s).1 := by
  obtain ⟨h1, h2, h3, -, -⟩ := C162_dummy_exact_partial g ans hx d arg
  have hf : (((List.range d.n).zip (arg.toList d.n)).filter fun p => g.hasSeed (d.envs p.1)) = (List.range d.n).zip (arg.toList d.n) := by
    apply List.filter_eq_self.mpr
    rintro ⟨i, s⟩ hp
    exact hs i ((mem_zip_range _ _ _ _).mp hp).1
  rw [hf] at h3
  refine ⟨_, h3, by simp [hl], ?_⟩
  intro i s hi his
  refine ⟨?_, h1 i s hi his (hs i hi)⟩
  have hz : ((List.range d.n).zip (arg.toList d.n))[i]? = some (i, s) := List.getElem?_zip_eq_some.mpr ⟨List.getElem?_range hi, his⟩
  rw [List.getElem?_map, hz]
  rfl

theorem scalar_seeds (n : Nat) (s : Option S) : (SeedArg.toList n (.scalar s)).length = n ∧ ∀ i, i < n → (SeedArg.toList n (.scalar s))[i]? = some s := by
  refine ⟨by simp [SeedArg.toList], fun i hi => ?_⟩
  simp [SeedArg.toList, List.getElem?_replicate, hi]

/-- One number (or `None`) is given to every environment. -/
theorem C162_same_seed (n : Nat) (s : Option S) : (SeedArg.toList n (.scalar s)).length = n ∧ ∀ i, i < n → (SeedArg.toList n (.scalar s))[i]? = some s :=
  scalar_seeds n s

/-- The wrapper with processes, for a list of the right size and any order of events: the call waits, or every environment has got its seed and the answers come in
the order of the environments; it does not wait for ever. -/
theorem C162_sub_partial (g : Gym E S A O X) (ans : E → Option S → O) (hx : ∀ e s, (g.seed e s).2 = .ok (ans e s)) (st : Sub E (Meth S A) O X) (hc : Clean st)
    (arg : SeedArg S) (hs : ∀ i, i < st.n → g.hasSeed (st.envs i) = true) (hl : (arg.toList st.n).length = st.n) (sched : List Ev) :
    ((st.seed g arg sched).2 = .waiting ∨
      ∃ vs, (st.seed g arg sched).2 = .ok vs ∧ vs.length = st.n ∧
        (∀ i s, i < st.n → (arg.toList st.n)[i]? = some s →
          vs[i]? = some (.stepped (ans (st.envs i) s) false) ∧ (st.seed g arg sched).1.envs i = (g.seed (st.envs i) s).1) ∧
        (∀ i, st.n ≤ i → (st.seed g arg sched).1.envs i = st.envs i) ∧ Clean (st.seed g arg sched).1) ∧
    (st.seed g arg (sched ++ ((List.range st.n).map .worker ++ List.replicate st.n .get))).2 ≠ .waiting := by
  have hr : ∀ i ∈ List.range st.n, i < st.n := fun i hi => by simpa using hi
  have hal : ((arg.toList st.n).map fun s => (Cmd.step (Meth.seed s) : Cmd (Meth S A))).length = (List.range st.n).length := by simp [hl]
  have hrun : ∀ i s, i < st.n → g.sys.run (st.envs i) (.step (.seed s)) = ((g.seed (st.envs i) s).1, .ok (.stepped (ans (st.envs i) s) false)) := by
    intro i s hi
    have := hx (st.envs i) s
    cases hq : g.seed (st.envs i) s with
    | mk e r =>
      rw [hq] at this
      simp only at this
      subst this
      simp [Sys.run, Gym.sys, hs i hi, hq, Except.map]
  have hget : ∀ (k : Nat) s, (arg.toList st.n)[k]? = some s →
      ((arg.toList st.n).map fun s => (Cmd.step (Meth.seed s) : Cmd (Meth S A)))[k]? = some (.step (.seed s)) := by
    intro k s h
    rw [List.getElem?_map, h]
    rfl
  constructor
  · rcases call_outcome g.sys st hc (List.range st.n) ((arg.toList st.n).map fun s => .step (.seed s)) List.nodup_range hr hal sched with
      h | ⟨vs, h1, h2, h3, h4, h5⟩ | ⟨k, i, c, x, h1, h2, h3, -⟩
    · exact Or.inl h
    · right
      refine ⟨vs, h1, by simpa using h2, ?_, ?_, h4⟩
      · intro i s hi his
        obtain ⟨v, hv, hv'⟩ := h3 i i _ (List.getElem?_range hi) (hget i s his)
        rw [hrun i s hi] at hv'
        simp only [Except.ok.injEq] at hv'
        refine ⟨by rw [hv, hv'], ?_⟩
        unfold Sub.seed
        rw [h5]
        unfold after
        rw [cmdFor_get _ _ List.nodup_range i i _ (List.getElem?_range hi) (hget i s his)]
        simp only
        rw [hrun i s hi]
      · intro i hi
        unfold Sub.seed
        rw [h5]
        unfold after
        rw [cmdFor_not_mem _ _ i (by simpa using hi)]
    · exfalso
      have hi : i < st.n := hr i (List.mem_of_getElem? h1)
      rw [List.getElem?_map] at h2
      cases hk : (arg.toList st.n)[k]? with
      | none => rw [hk] at h2; cases h2
      | some s =>
        rw [hk] at h2
        simp only [Option.map_some, Option.some.injEq] at h2
        subst h2
        rw [hrun i s hi] at h3
        cases h3
  · have := call_completes g.sys st hc (List.range st.n) ((arg.toList st.n).map fun s => .step (.seed s)) List.nodup_range hr hal sched
    rw [List.length_range] at this
    exact this

theorem putAll_short (idxs : List Nat) (args : List (Cmd A)) (st : Sub E A O X) (hnd : idxs.Nodup) (hr : ∀ i ∈ idxs, i < st.n) (hl : args.length < idxs.length) :
    (putAll idxs args st).2 = false ∧ (putAll idxs args st).1.envs = st.envs ∧
      ∀ (k i : Nat), idxs[k]? = some i → (putAll idxs args st).1.cmds i = st.cmds i ++ args[k]?.toList := by
  induction idxs generalizing args st with
  | nil => simp at hl
  | cons j is ih =>
    have hj := hr j List.mem_cons_self
    rw [List.nodup_cons] at hnd
    cases args with
    | nil =>
      rw [putAll, if_neg (by omega)]
      simp
    | cons c args =>
      rw [putAll, if_neg (by omega)]
      obtain ⟨h1, h2, h3⟩ := ih args { st with cmds := Function.update st.cmds j (st.cmds j ++ [c]) } hnd.2 (fun i hi => hr i (List.mem_cons_of_mem _ hi))
        (by simpa using hl)
      refine ⟨h1, h2, ?_⟩
      have hrest : ∀ i, i ∉ is → (putAll is args { st with cmds := Function.update st.cmds j (st.cmds j ++ [c]) }).1.cmds i =
          Function.update st.cmds j (st.cmds j ++ [c]) i := by
        intro i hi
        clear h1 h2 h3 hl ih
        have gen : ∀ (is : List Nat) (args : List (Cmd A)) (st : Sub E A O X), i ∉ is → (putAll is args st).1.cmds i = st.cmds i := by
          intro is
          induction is with
          | nil => intros; rfl
          | cons a is ih =>
            intro args st h
            simp only [List.mem_cons, not_or] at h
            cases args with
            | nil => rw [putAll]; split <;> rfl
            | cons b args =>
              rw [putAll]
              split
              · rfl
              · rw [ih args _ h.2]
                simp [Function.update_of_ne h.1]
        exact gen is args _ hi
      intro k i hk
      cases k with
      | zero =>
        simp only [List.getElem?_cons_zero, Option.some.injEq] at hk
        subst hk
        rw [hrest j hnd.1]
        simp
      | succ k =>
        simp only [List.getElem?_cons_succ] at hk
        have hij : i ≠ j := fun h => hnd.1 (h ▸ List.mem_of_getElem? hk)
        rw [h3 k i hk]
        simp [Function.update_of_ne hij]

/-- A list that is too short is an error, but the commands for the first environments are already on their way. -/
theorem C162_sub_short (g : Gym E S A O X) (st : Sub E (Meth S A) O X) (hc : Clean st) (seeds : List (Option S)) (hl : seeds.length < st.n) (sched : List Ev) :
    (st.seed g (.list seeds) sched).2 = .fail .index ∧ (st.seed g (.list seeds) sched).1.envs = st.envs ∧
      ∀ i, i < st.n → (st.seed g (.list seeds) sched).1.cmds i = (seeds[i]?.map fun s => (Cmd.step (Meth.seed s) : Cmd (Meth S A))).toList := by
  have h := putAll_short (List.range st.n) (seeds.map fun s => (Cmd.step (Meth.seed s) : Cmd (Meth S A))) st List.nodup_range (fun i hi => by simpa using hi)
    (by simpa using hl)
  have hcm : st.seed g (.list seeds) sched = ((putAll (List.range st.n) (seeds.map fun s => (Cmd.step (Meth.seed s) : Cmd (Meth S A))) st).1, .fail .index) := by
    unfold Sub.seed callMethod SeedArg.toList
    revert h
    generalize putAll (List.range st.n) (seeds.map fun s => (Cmd.step (Meth.seed s) : Cmd (Meth S A))) st = r
    obtain ⟨a, b⟩ := r
    rintro ⟨rfl, -, -⟩
    rfl
  rw [hcm]
  refine ⟨rfl, h.2.1, fun i hi => ?_⟩
  rw [h.2.2 i i (List.getElem?_range hi), hc.1 i, List.getElem?_map]
  rfl

/-- An environment for the examples: its state is the last seed (0 at first); even states can be seeded; the answer is the seed. Closing raises in state 9. -/
abbrev seeded : Gym Nat Nat Nat Nat String where
  reset e := (e, .ok (1000 + e))
  step e a := (e, .ok (a, a == 5))
  hasSeed e := e % 2 == 0
  seed _ s := (s.getD 0, .ok (s.getD 0))
  render e := (e, .ok (2000 + e))
  close e := if e = 9 then (e, .error "broken") else (e, .ok 0)
  noSeed := "no attribute seed"

example : ((Dummy.new 3 fun _ => 0).seed seeded (.list [some 4, none, some 6])).2 = .ok [4, 0, 6] ∧
    ((Sub.new 3 fun _ => 0 : Sub Nat (Meth Nat Nat) Nat String).seed seeded (.list [some 4, none, some 6])
      [.worker 2, .worker 0, .get, .worker 1, .get, .get]).2 = .ok [.stepped 4 false, .stepped 0 false, .stepped 6 false] := by
  constructor <;> rfl

/-- Lists of a wrong size pass in the wrapper without processes, and an environment that cannot be seeded shortens the answer. -/
theorem C162_violated_dummy : ((Dummy.new 2 fun _ => 0).seed seeded (.list [some 4])).2 = .ok [4] ∧
    ((Dummy.new 2 id).seed seeded (.list [some 4, some 6])).2 = .ok [4] := by
  constructor <;> rfl

/-- After a list that was too short, the next call takes the answer of `seed` for its own: `reset` returns 4, the seed, in place of an observation. -/
theorem C162_violated_stale : let st := ((Sub.new 2 fun _ => 0 : Sub Nat (Meth Nat Nat) Nat String).seed seeded (.list [some 4]) []).1
    (st.reset seeded.sys (some [0]) [.worker 0, .get]).2 = .ok [.stepped 4 false] := by rfl

theorem C162_violated : ¬ C162_full := by
  intro h
  obtain ⟨f, hf⟩ := ((h Nat Nat Nat Nat String seeded 2 (fun _ => 0) [some 4]).1 (by decide)).1
  have h2 := congrArg Prod.snd hf
  rw [C162_violated_dummy.1] at h2
  cases h2

/-! ### C163 -/

/-- Full statement: where one wrapper returns the frames of the environments asked for, the other one does so too (or has not ended yet). -/
def C163_full : Prop :=
  ∀ (E S A O X : Type) (g : Gym E S A O X) (d : Dummy E) (st : Sub E (Meth S A) O X) (idx : Option (List Nat)) (sched : List Ev) (vs : List (Val O)),
    Clean st → st.n = d.n → st.envs = d.envs → st.terminal = d.terminal → (idx.getD (List.range d.n)).Nodup → (st.render g idx sched).2 = .ok vs →
    ∃ os, (d.render g idx).2 = .ok os

theorem renderLoop_all (g : Gym E S A O X) (frame : E → O) (hx : ∀ e, (g.render e).2 = .ok (frame e)) (stop : Nat → Dummy E → Bool)
    (hstop : ∀ i d d', d.n = d'.n → d.terminal = d'.terminal → stop i d = stop i d') (is : List Nat) (d : Dummy E) (hn : is.Nodup) (hr : ∀ i ∈ is, i < d.n)
    (hs : ∀ i ∈ is, stop i d = false) :
    (renderLoop g stop is d).2 = .ok (is.map fun i => frame (d.envs i)) ∧
    ∀ i, (renderLoop g stop is d).1.envs i = if i ∈ is then (g.render (d.envs i)).1 else d.envs i := by
  induction is generalizing d with
  | nil => exact ⟨rfl, fun i => by simp [renderLoop]⟩
  | cons j is ih =>
    rw [List.nodup_cons] at hn
    cases hq : g.render (d.envs j) with
    | mk e r =>
      have hxr := hx (d.envs j)
      rw [hq] at hxr
      simp only at hxr
      subst hxr
      obtain ⟨h1, h2⟩ := ih { d with envs := Function.update d.envs j e } hn.2 (fun i hi => hr i (List.mem_cons_of_mem _ hi))
        (fun i hi => (hstop i { d with envs := Function.update d.envs j e } d rfl rfl).trans (hs i (List.mem_cons_of_mem _ hi)))
      have hcong : (is.map fun i => frame (Function.update d.envs j e i)) = is.map fun i => frame (d.envs i) := by
        apply List.map_congr_left
        intro i hi
        have : i ≠ j := fun h => hn.1 (h ▸ hi)
        rw [Function.update_of_ne this]
      have hd : renderLoop g stop (j :: is) d = ((renderLoop g stop is { d with envs := Function.update d.envs j e }).1,
          .ok (frame (d.envs j) :: is.map fun i => frame (d.envs i))) := by
        rw [renderLoop, if_neg (by have := hr j List.mem_cons_self; omega), if_neg (by simp [hs j List.mem_cons_self]), hq]
        simp only
        rw [hcong] at h1
        revert h1
        generalize renderLoop g stop is { d with envs := Function.update d.envs j e } = q
        obtain ⟨a, b⟩ := q
        rintro rfl
        rfl
      rw [hd]
      refine ⟨rfl, fun i => ?_⟩
      rw [h2 i]
      by_cases hij : i = j
      · subst hij
        simp [hn.1, hq]
      · simp [hij]

/-- Without terminal environments (among those asked for) both wrappers give the frames of the environments asked for, in that order, each rendered once; the one
with processes for any order of events, and it does not wait for ever. -/
theorem C163_render_partial (g : Gym E S A O X) (frame : E → O) (hx : ∀ e, (g.render e).2 = .ok (frame e)) (d : Dummy E) (st : Sub E (Meth S A) O X) (hc : Clean st)
    (hsn : st.n = d.n) (hse : st.envs = d.envs) (idx : Option (List Nat)) (hn : (idx.getD (List.range d.n)).Nodup)
    (hr : ∀ i ∈ idx.getD (List.range d.n), i < d.n) (ht : ∀ i ∈ idx.getD (List.range d.n), d.terminal i = false) (sched : List Ev) :
    (d.render g idx).2 = .ok ((idx.getD (List.range d.n)).map fun i => frame (d.envs i)) ∧
    ((st.render g idx sched).2 = .waiting ∨
      ((st.render g idx sched).2 = .ok ((idx.getD (List.range d.n)).map fun i => .stepped (frame (d.envs i)) false) ∧
        (st.render g idx sched).1.envs = (d.render g idx).1.envs ∧ Clean (st.render g idx sched).1)) ∧
    (st.render g idx (sched ++ ((idx.getD (List.range d.n)).map .worker ++ List.replicate (idx.getD (List.range d.n)).length .get))).2 ≠ .waiting := by
  have hd : (d.render g idx).2 = .ok ((idx.getD (List.range d.n)).map fun i => frame (d.envs i)) ∧
      ∀ i, (d.render g idx).1.envs i = if i ∈ idx.getD (List.range d.n) then (g.render (d.envs i)).1 else d.envs i := by
    cases idx with
    | none =>
      refine renderLoop_all g frame hx _ ?_ _ d hn hr ?_
      · intro i a b h1 h2
        simp only [h1, h2]
      · intro i _
        simp only [List.any_eq_false]
        intro k hk
        simpa using ht k hk
    | some idx =>
      refine renderLoop_all g frame hx _ ?_ _ d hn hr ?_
      · intro i a b h1 h2
        simp only [h2]
      · exact ht
  have hrun : ∀ e, g.sys.run e (.step .render) = ((g.render e).1, .ok (.stepped (frame e) false)) := by
    intro e
    have := hx e
    cases hq : g.render e with
    | mk e' r =>
      rw [hq] at this
      simp only at this
      subst this
      simp [Sys.run, Gym.sys, hq, Except.map]
  have hgen : ∀ is : List Nat, is = idx.getD (List.range d.n) → ∀ sched,
      st.render g idx sched = callMethod g.sys st is (is.map fun _ => .step .render) sched := by
    rintro is rfl sched
    simp only [Sub.render, hsn]
  have hin := hgen _ rfl
  revert hin hd hn hr
  generalize idx.getD (List.range d.n) = is
  intro hn hr hd hin
  have hr' : ∀ i ∈ is, i < st.n := by rw [hsn]; exact hr
  refine ⟨hd.1, ?_, ?_⟩
  · rw [hin]
    rcases call_outcome g.sys st hc is (is.map fun _ => .step .render) hn hr' (by simp) sched with h | ⟨vs, h1, h2, h3, h4, h5⟩ | ⟨k, i, c, x, h1, h2, h3, -⟩
    · exact Or.inl h
    · right
      refine ⟨?_, ?_, h4⟩
      · rw [h1]
        congr 1
        apply List.ext_getElem?
        intro k
        by_cases hk : k < is.length
        · have hk' : is[k]? = some is[k] := List.getElem?_eq_getElem hk
          obtain ⟨v, hv, hv'⟩ := h3 k is[k] (.step .render) hk' (by rw [List.getElem?_map, hk']; rfl)
          rw [hrun] at hv'
          simp only [Except.ok.injEq] at hv'
          rw [hv, List.getElem?_map, hk', ← hv', hse]
          rfl
        · rw [List.getElem?_eq_none (by omega), List.getElem?_eq_none (by simp; omega)]
      · rw [h5]
        funext i
        rw [hd.2 i]
        unfold after
        by_cases hi : i ∈ is
        · obtain ⟨k, hk⟩ := List.mem_iff_getElem?.mp hi
          rw [cmdFor_get _ _ hn k i (.step .render) hk (by rw [List.getElem?_map, hk]; rfl)]
          simp only [hi, if_true, hrun, hse]
        · rw [cmdFor_not_mem _ _ i hi]
          simp [hi, hse]
    · exfalso
      rw [List.getElem?_map, h1] at h2
      simp only [Option.map_some, Option.some.injEq] at h2
      subst h2
      rw [hrun] at h3
      cases h3
  · rw [hin]
    exact call_completes g.sys st hc is (is.map fun _ => .step .render) hn hr' (by simp) sched

/-- The wrapper without processes refuses to render a terminal environment; without indexes, it then renders none at all. -/
theorem C163_dummy_refuses (g : Gym E S A O X) (d : Dummy E) (i : Nat) (hi : i < d.n) (ht : d.terminal i = true) :
    d.render g none = (d, .error .termination) ∧ d.render g (some [i]) = (d, .error .termination) := by
  constructor
  · have hne : List.range d.n = 0 :: (List.range (d.n - 1)).map (· + 1) := by
      obtain ⟨m, hm⟩ : ∃ m, d.n = m + 1 := ⟨d.n - 1, by omega⟩
      rw [hm, List.range_succ_eq_map]
      simp
    have hany : (List.range d.n).any d.terminal = true := List.any_eq_true.mpr ⟨i, by simpa using hi, ht⟩
    unfold Dummy.render
    simp only
    rw [show renderLoop g (fun _ d => (List.range d.n).any d.terminal) (List.range d.n) d =
      renderLoop g (fun _ d => (List.range d.n).any d.terminal) (0 :: (List.range (d.n - 1)).map (· + 1)) d by rw [← hne], renderLoop, if_neg (by omega), if_pos hany]
  · unfold Dummy.render
    simp only
    rw [renderLoop, if_neg (by omega), if_pos ht]

/-- It refuses an index it does not have, and the environments before that index have been rendered. -/
theorem C163_dummy_index (g : Gym E S A O X) (frame : E → O) (hx : ∀ e, (g.render e).2 = .ok (frame e)) (is js : List Nat) (i : Nat) (d : Dummy E) (hi : d.n ≤ i)
    (hn : is.Nodup) (hr : ∀ k ∈ is, k < d.n) (ht : ∀ k ∈ is, d.terminal k = false) :
    (d.render g (some (is ++ i :: js))).2 = .error .index ∧
      ∀ k, (d.render g (some (is ++ i :: js))).1.envs k = if k ∈ is then (g.render (d.envs k)).1 else d.envs k := by
  unfold Dummy.render
  simp only
  induction is generalizing d with
  | nil =>
    rw [List.nil_append, renderLoop, if_pos hi]
    simp
  | cons a is ih =>
    have ha := hr a List.mem_cons_self
    have hxa := hx (d.envs a)
    rw [List.cons_append, renderLoop, if_neg (by omega), if_neg (by simp [ht a List.mem_cons_self])]
    cases hq : g.render (d.envs a) with
    | mk e r =>
      rw [hq] at hxa
      simp only at hxa
      subst hxa
      simp only
      have hrec := ih { d with envs := Function.update d.envs a e } hi (List.nodup_cons.mp hn).2 (fun k hk => hr k (List.mem_cons_of_mem _ hk))
        (fun k hk => ht k (List.mem_cons_of_mem _ hk))
      cases hl : renderLoop g (fun i d => d.terminal i) (is ++ i :: js) { d with envs := Function.update d.envs a e } with
      | mk d' r' =>
        rw [hl] at hrec
        obtain ⟨h1, h2⟩ := hrec
        simp only at h1 h2
        subst h1
        refine ⟨rfl, fun k => ?_⟩
        simp only
        rw [h2 k]
        by_cases hk : k = a
        · subst hk
          simp [(List.nodup_cons.mp hn).1, hq]
        · simp [hk]

example : ((Dummy.new 2 id).render seeded (some [1, 2])).2 = .error .index := rfl

example : ((Dummy.new 2 id).render seeded (some [1, 0])).2 = .ok [2001, 2000] ∧
    ((Sub.new 2 id : Sub Nat (Meth Nat Nat) Nat String).render seeded (some [1, 0]) [.worker 0, .worker 1, .get, .get]).2 =
      .ok [.stepped 2001 false, .stepped 2000 false] := by
  constructor <;> rfl

theorem C163_violated : ¬ C163_full := by
  intro h
  obtain ⟨os, hos⟩ := h Nat Nat Nat Nat String seeded ⟨1, id, fun _ => true⟩ ⟨1, id, fun _ => [], [], fun _ => true⟩ none [.worker 0, .get] [.stepped 2000 false]
    ⟨fun _ => rfl, rfl⟩ rfl rfl rfl (by decide) rfl
  rw [(C163_dummy_refuses seeded ⟨1, id, fun _ => true⟩ 0 (by decide) rfl).1] at hos
  cases hos

/-! ### C164 -/

/-- Full statement: once `close` has returned or raised, all workers have been told to end. -/
def C164_full : Prop :=
  ∀ (E S A O X : Type) (g : Gym E S A O X) (n : Nat) (envs : Nat → E) (sched : List Ev),
    ((SubC.new n envs).close g sched).2 ≠ .waiting → ∀ i, i < n → ((SubC.new n envs).close g sched).1.ended i = true

theorem alive_none (sched : List Ev) : alive (fun _ => false) sched = sched := by
  unfold alive
  apply List.filter_eq_self.mpr
  intro ev _
  cases ev <;> rfl

/-- If no environment raises: the call waits, or every environment is closed once, every worker has ended and nothing is left over; it does not wait for ever. -/
theorem C164_close_partial (g : Gym E S A O X) (hx : ∀ e, ∃ o, (g.close e).2 = .ok o) (n : Nat) (envs : Nat → E) (sched : List Ev) :
    (((SubC.new n envs).close g sched).2 = .waiting ∨
      (((SubC.new n envs).close g sched).2 = .ok () ∧ ((SubC.new n envs).close g sched).1.closed = true ∧
        (∀ i, i < n → ((SubC.new n envs).close g sched).1.ended i = true ∧ ((SubC.new n envs).close g sched).1.sub.envs i = (g.close (envs i)).1) ∧
        (∀ i, n ≤ i → ((SubC.new n envs).close g sched).1.sub.envs i = envs i) ∧
        Clean ((SubC.new n envs).close g sched).1.sub)) ∧
    ((SubC.new n envs).close g (sched ++ ((List.range n).map .worker ++ List.replicate n .get))).2 ≠ .waiting := by
  have hc : Clean (Sub.new n envs : Sub E (Meth S A) O X) := ⟨fun _ => rfl, rfl⟩
  have hr : ∀ i ∈ List.range n, i < n := fun i hi => by simpa using hi
  have hrun : ∀ e, ∃ v, g.sys.run e (.step .close) = ((g.close e).1, .ok v) := by
    intro e
    obtain ⟨o, ho⟩ := hx e
    cases hq : g.close e with
    | mk e' r =>
      rw [hq] at ho
      simp only at ho
      subst ho
      exact ⟨.stepped o false, by simp [Sys.run, Gym.sys, hq, Except.map]⟩
  have hcl : ∀ sched, (SubC.new n envs).close g sched =
      match callMethod g.sys (Sub.new n envs) (List.range n) ((List.range n).map fun _ => .step .close) sched with
      | (st, .waiting) => (⟨st, true, fun _ => false⟩, .waiting)
      | (st, .fail f) => (⟨st, true, fun _ => false⟩, .fail f)
      | (st, .ok _) => (⟨st, true, fun i => i < st.n || false⟩, .ok ()) := by
    intro sched
    unfold SubC.close SubC.call
    simp only [SubC.new, alive_none, Sub.new]
    generalize callMethod g.sys _ _ _ _ = q
    obtain ⟨a, b⟩ := q
    cases b <;> rfl
  have hnn := fun sched => n_callMethod g.sys (Sub.new n envs : Sub E (Meth S A) O X) (List.range n) ((List.range n).map fun _ => .step .close) sched
  constructor
  · rw [hcl]
    have hnn := hnn sched
    rcases call_outcome g.sys (Sub.new n envs) hc (List.range n) ((List.range n).map fun _ => .step .close) List.nodup_range hr (by simp) sched with
      h | ⟨vs, h1, h2, h3, h4, h5⟩ | ⟨k, i, c, x, h1, h2, h3, -⟩
    · left
      revert h
      generalize callMethod g.sys _ _ _ _ = q
      obtain ⟨a, b⟩ := q
      rintro rfl
      rfl
    · right
      revert h1 h4 h5 hnn
      generalize callMethod g.sys _ _ _ _ = q
      obtain ⟨a, b⟩ := q
      rintro hnn rfl h4 h5
      simp only at h4 h5 hnn ⊢
      refine ⟨trivial, trivial, ?_, ?_, h4⟩
      · intro i hi
        refine ⟨by rw [hnn]; simp [Sub.new, hi], ?_⟩
        rw [h5]
        unfold after
        have hk : (List.range n)[i]? = some i := List.getElem?_range hi
        rw [cmdFor_get _ _ List.nodup_range i i (.step .close) hk (by rw [List.getElem?_map, hk]; rfl)]
        obtain ⟨v, hv⟩ := hrun (envs i)
        simp only [Sub.new, hv]
      · intro i hi
        rw [h5]
        unfold after
        rw [cmdFor_not_mem _ _ i (by simpa using hi)]
        rfl
    · exfalso
      rw [List.getElem?_map, h1] at h2
      simp only [Option.map_some, Option.some.injEq] at h2
      subst h2
      obtain ⟨v, hv⟩ := hrun ((Sub.new n envs : Sub E (Meth S A) O X).envs i)
      rw [hv] at h3
      cases h3
  · rw [hcl]
    have := call_completes g.sys (Sub.new n envs) hc (List.range n) ((List.range n).map fun _ => .step .close) List.nodup_range hr (by simp) sched
    rw [List.length_range] at this
    revert this
    generalize callMethod g.sys _ _ _ _ = q
    obtain ⟨a, b⟩ := q
    cases b with
    | waiting => intro h; exact absurd rfl h
    | fail f => intro _; simp
    | ok v => intro _; simp

/-- A second `close` does nothing, whatever the first one did. -/
theorem C164_twice (g : Gym E S A O X) (w : SubC E S A O X) (s1 s2 : List Ev) : ((w.close g s1).1.close g s2) = ((w.close g s1).1, .ok ()) := by
  have : (w.close g s1).1.closed = true := by
    unfold SubC.close
    split
    · assumption
    · unfold SubC.call
      simp only
      generalize callMethod g.sys _ _ _ _ = q
      obtain ⟨a, b⟩ := q
      cases b <;> rfl
  rw [SubC.close, if_pos this]

theorem collect_gets_empty (s : Sys E A O X) (want : Nat) (hw : 0 < want) (evs : List Ev) (hevs : ∀ ev ∈ evs, ev = .get) (st : Sub E A O X) (hr : st.results = []) :
    collect s want evs st [] = (st, .waiting) := by
  induction evs with
  | nil =>
    rw [collect, if_neg (by simp; omega)]
  | cons ev evs ih =>
    have := hevs ev List.mem_cons_self
    subst this
    rw [collect, if_neg (by simp; omega), hr]
    exact ih fun ev hev => hevs ev (List.mem_cons_of_mem _ hev)

/-- A call on workers that have all ended waits for ever. -/
theorem C164_after (g : Gym E S A O X) (w : SubC E S A O X) (hc : Clean w.sub) (he : ∀ i, w.ended i = true) (idxs : List Nat) (hne : idxs ≠ []) (hn : idxs.Nodup)
    (hr : ∀ i ∈ idxs, i < w.sub.n) (args : List (Cmd (Meth S A))) (hl : args.length = idxs.length) (sched : List Ev) :
    (w.call g idxs args sched).2 = .waiting := by
  have hal : ∀ ev ∈ alive w.ended sched, ev = .get := by
    intro ev hev
    cases ev with
    | get => rfl
    | worker i =>
      have := (List.mem_filter.mp hev).2
      simp [he i] at this
  unfold SubC.call callMethod
  rw [putAll_ok idxs args w.sub hn hr hl]
  simp only
  rw [collect_gets_empty g.sys idxs.length (List.length_pos_of_ne_nil hne) _ hal { w.sub with cmds := fun i => w.sub.cmds i ++ (cmdFor idxs args i).toList } hc.2]

example : ((SubC.new 2 id : SubC Nat Nat Nat Nat String).close seeded [.worker 1, .worker 0, .get, .get]).2 = .ok () ∧
    ((SubC.new 2 id : SubC Nat Nat Nat Nat String).close seeded [.worker 1, .worker 0, .get, .get]).1.ended 1 = true := by
  constructor <;> rfl

/-- If the `close` of an environment raises, no worker is told to end, and the next `close` does nothing. -/
theorem C164_violated_raise : let w := ((SubC.new 2 (fun _ => 9) : SubC Nat Nat Nat Nat String).close seeded [.worker 0, .get]).1
    ((SubC.new 2 (fun _ => 9) : SubC Nat Nat Nat Nat String).close seeded [.worker 0, .get]).2 = .fail (.env "broken") ∧
    w.ended 0 = false ∧ w.ended 1 = false ∧ (w.close seeded [.worker 1, .get]).2 = .ok () ∧ (w.close seeded [.worker 1, .get]).1.ended 1 = false := by
  refine ⟨?_, ?_, ?_, ?_, ?_⟩ <;> rfl

theorem C164_violated : ¬ C164_full := by
  intro h
  have := h Nat Nat Nat Nat String seeded 2 (fun _ => 9) [.worker 0, .get] (by rw [C164_violated_raise.1]; simp) 0 (by decide)
  rw [C164_violated_raise.2.1] at this
  cases this

/-- The wrapper without processes closes its environments in turn; the first that raises stops it. -/
theorem C164_dummy (g : Gym E S A O X) (hx : ∀ e, ∃ o, (g.close e).2 = .ok o) (d : Dummy E) :
    (d.close g).2 = .ok () ∧ ∀ i, (d.close g).1.envs i = if i < d.n then (g.close (d.envs i)).1 else d.envs i := by
  have gen : ∀ (is : List Nat) (d : Dummy E), is.Nodup →
      (closeLoop g is d).2 = .ok () ∧ ∀ i, (closeLoop g is d).1.envs i = if i ∈ is then (g.close (d.envs i)).1 else d.envs i := by
    intro is
    induction is with
    | nil => intro d _; exact ⟨rfl, fun i => by simp [closeLoop]⟩
    | cons j is ih =>
      intro d hn
      rw [List.nodup_cons] at hn
      obtain ⟨o, ho⟩ := hx (d.envs j)
      rw [closeLoop]
      cases hq : g.close (d.envs j) with
      | mk e r =>
        rw [hq] at ho
        simp only at ho
        subst ho
        simp only
        obtain ⟨h1, h2⟩ := ih { d with envs := Function.update d.envs j e } hn.2
        refine ⟨h1, fun i => ?_⟩
        rw [h2 i]
        by_cases hij : i = j
        · subst hij; simp [hn.1, hq]
        · simp [hij]
  obtain ⟨h1, h2⟩ := gen (List.range d.n) d List.nodup_range
  refine ⟨h1, fun i => ?_⟩
  have := h2 i
  simp only [List.mem_range] at this
  exact this

end Machin.EnvWrap
