import Verif.World.Lemmas
import Verif.World.BarrierLemmas

/-! # Properties of RPC groups: C35–C38 -/

namespace Machin.World

open Spec

variable {P K V : Type} [DecidableEq P] [DecidableEq K]

/-! ### C35: ownership of keys -/

/-- The whole property about owners, for all interleavings with look-ups: at most one process holds a key. -/
def C35_full : Prop :=
  ∀ s : State Bool Nat Nat, Reach s → ∀ kind k p q, Holds s p kind k → Holds s q kind k → p = q

/-- It is false: a look-up that arrives between the two parts of `pair` finds nothing in the process that is pairing and
removes its entry; then another process can pair the key as well. -/
theorem C35_violated : ¬ C35_full := by
  intro h
  let steps : List (Step Bool Nat Nat) :=
    [.beginAcquire true .value 5 1, .lookup false .value 5, .finish true, .beginAcquire false .value 5 2, .finish false]
  have hr : Reach (steps.foldl (fun s st => step s st) init) := by
    simp only [steps, List.foldl_cons, List.foldl_nil]
    exact .step _ (.step _ (.step _ (.step _ (.step _ .init))))
  have := h _ hr .value 5 true false
    ⟨⟨_, 1, rfl, rfl⟩, by simp [steps, step, World.beginAcquire, World.lookup, World.resolve, World.serve, World.finish, setEntry,
      unsetEntry, init, upd, upd2]⟩
    ⟨⟨_, 2, rfl, rfl⟩, by simp [steps, step, World.beginAcquire, World.lookup, World.resolve, World.serve, World.finish, setEntry,
      unsetEntry, init, upd, upd2]⟩
  cases this

/-- It holds for every interleaving of the parts of `pair`, `unpair`, `register` and `deregister` calls, with look-ups at any
time as long as they are not served by a process in the middle of such a call. -/
theorem C35_unique_partial [DecidableEq V] (s : State P K V) (h : QuietReach s) (kind : Kind) (k : K) (p q : P)
    (hp : Holds s p kind k) (hq : Holds s q kind k) : p = q := by
  have inv := Inv.quietReach h
  rcases hp with ⟨⟨lp, vp, hgp, hlp⟩, hpp⟩
  rcases hq with ⟨⟨lq, vq, hgq, hlq⟩, hpq⟩
  have h1 := inv.owned p lp kind k vp hgp hlp hpp
  have h2 := inv.owned q lq kind k vq hgq hlq hpq
  rw [h1] at h2
  exact Option.some.inj h2

/-- A key that is held cannot be taken: the attempt, by whatever process, raises `KeyError` and changes nothing. -/
theorem C35_second_partial [DecidableEq V] (s : State P K V) (h : QuietReach s) (kind : Kind) (k : K) (p q : P) (v : V)
    (hp : Holds s p kind k) : beginAcquire s q kind k v = (s, .error .key) := by
  have inv := Inv.quietReach h
  rcases hp with ⟨⟨lp, vp, hgp, hlp⟩, hpp⟩
  have h1 := inv.owned p lp kind k vp hgp hlp hpp
  rcases inv.groups q with ⟨lq, hgq⟩
  unfold beginAcquire setEntry
  rw [hgq]
  dsimp only
  cases lq kind k with
  | some _ => rfl
  | none => rw [h1]

/-- Only the holder can release: for any other process with the key not in its table `KeyError`, and nothing changes. -/
theorem C35_release_partial [DecidableEq V] (s : State P K V) (h : QuietReach s) (kind : Kind) (k : K) (q : P)
    (hid : s.phase q = .idle) (hq : ¬ Holds s q kind k) : beginRelease s q kind k = (s, .error .key) := by
  have inv := Inv.quietReach h
  rcases inv.groups q with ⟨lq, hgq⟩
  unfold beginRelease
  rw [hgq]
  dsimp only
  cases hl : lq kind k with
  | none => rfl
  | some v => exact absurd ⟨⟨lq, v, hgq, hl⟩, by rw [hid]; simp⟩ hq

/-- The holder can release, and then any idle process without the key can take it. -/
theorem C35_reacquire_partial [DecidableEq V] (s : State P K V) (h : QuietReach s) (kind : Kind) (k : K) (p q : P) (v : V)
    (hid : s.phase p = .idle) (hp : Holds s p kind k) (hqk : ¬ ∃ loc w, s.groups q = some loc ∧ loc kind k = some w) :
    (beginRelease s p kind k).2 = .ok () ∧
    (beginAcquire (finish (beginRelease s p kind k).1 p) q kind k v).2 = .ok () := by
  have inv := Inv.quietReach h
  rcases hp with ⟨⟨lp, vp, hgp, hlp⟩, hpp⟩
  have h1 := inv.owned p lp kind k vp hgp hlp hpp
  rcases inv.groups q with ⟨lq, hgq⟩
  have hne : q ≠ p := by
    rintro rfl
    exact hqk ⟨lp, vp, hgp, hlp⟩
  have hb : beginRelease s p kind k =
      ({ s with lut := upd2 s.lut kind k none, phase := upd s.phase p (.releasing kind k) }, .ok ()) := by
    unfold beginRelease unsetEntry
    rw [hgp]
    dsimp only
    rw [hlp]
    dsimp only
    rw [h1]
    simp
  rw [hb]
  refine ⟨rfl, ?_⟩
  unfold finish
  dsimp only
  rw [hgp, upd_same]
  dsimp only
  unfold beginAcquire setEntry
  dsimp only
  rw [upd_ne _ _ _ _ hne, hgq]
  dsimp only
  have hlq : lq kind k = none := by
    cases hl : lq kind k with
    | none => rfl
    | some w => exact absurd ⟨lq, w, hgq, hl⟩ hqk
  rw [hlq]
  dsimp only
  rw [upd2_same]

/-- Two processes compete; the second one gets the key after the first released it. -/
example : let s1 := (acquire (init : State Nat Nat Nat) 0 .value 5 10).1
    (acquire s1 1 .value 5 20).2 = .error .key ∧ (release s1 1 .value 5).2 = .error .key ∧
    (release s1 0 .value 5).2 = .ok () ∧ (acquire (release s1 0 .value 5).1 1 .value 5 20).2 = .ok () ∧
    (lookup (acquire (release s1 0 .value 5).1 1 .value 5 20).1 0 .value 5).2 = .ok 20 := by
  refine ⟨rfl, rfl, rfl, rfl, rfl⟩

/-- A reachable state in which a key is held, as the theorems ask. -/
example : ∃ s : State Nat Nat Nat, QuietReach s ∧ Holds s 0 .value 5 ∧ s.phase 0 = .idle :=
  ⟨_, .step (.finish 0) (.step (.beginAcquire 0 .value 5 10) .init (by intro q kind k h; cases h)) (by intro q kind k h; cases h),
    ⟨⟨_, 10, rfl, rfl⟩, by simp [step, World.beginAcquire, World.finish, setEntry, init, upd, upd2]⟩,
    by simp [step, World.beginAcquire, World.finish, setEntry, init, upd, upd2]⟩

/-! ### C36: look-ups -/

/-- For every sequence of calls (each served before the next one starts), by any processes, the answers are those of one
abstract table of owners and values: in particular a look-up from any member answers with the value most recently paired, or
`KeyError` if nobody holds the key. -/
theorem C36_lookup (ops : List (Op P K V)) :
    impRun (init : State P K V) ops = absRun (fun _ _ => none) ops := by
  have key : ∀ (s : State P K V) (m : Table P K V), Rep s m → impRun s ops = absRun m ops := by
    induction ops with
    | nil => intro s m _; rfl
    | cons o os ih =>
      intro s m h
      have hs := h.step o
      unfold impRun absRun
      rw [hs.2, ih _ _ hs.1]
  exact key _ _ Rep.init

example : impRun (init : State Nat Nat Nat)
    [.acquire 0 .value 5 10, .get 2 .value 5, .acquire 1 .value 5 20, .release 1 .value 5, .release 0 .value 5,
     .get 0 .value 5, .acquire 1 .value 5 30, .get 0 .value 5, .get 0 .service 5] =
    [.ok none, .ok (some 10), .error .key, .error .key, .ok none, .error .key, .ok none, .ok (some 30), .error .key] := by
  decide

/-- The abstract table answers with the most recent value of the key. -/
theorem C36_abs (m : Table P K V) (p q : P) (kind : Kind) (k : K) (v : V) (h : (absStep m (.acquire p kind k v)).2 = .ok none) :
    (absStep (absStep m (.acquire p kind k v)).1 (.get q kind k)).2 = .ok (some v) := by
  unfold absStep at *
  cases hm : m kind k with
  | some e => simp only [hm] at h; cases h
  | none =>
    simp only [hm]
    rw [upd2_same]

/-! ### C37: purge of stale entries -/

/-- The whole property: a look-up sent to a process that does not hold the key raises `KeyError` and removes exactly the
stale entry. -/
def C37_full : Prop :=
  ∀ (s : State Bool Nat Nat) (q h : Bool) (kind : Kind) (k : Nat),
    s.lut kind k = some h → resolve s q kind k = some h → (∀ loc, s.groups h = some loc → loc kind k = none) →
    lookup s q kind k = ({ s with lut := upd2 s.lut kind k none }, .error .key)

/-- It holds for values, and for services as long as the group is gone from the process. -/
theorem C37_purge_partial (s : State P K V) (q h : P) (kind : Kind) (k : K) (hlut : s.lut kind k = some h)
    (hres : resolve s q kind k = some h) (hstale : ∀ loc, s.groups h = some loc → loc kind k = none)
    (hok : kind = .value ∨ s.groups h = none) :
    lookup s q kind k = ({ s with lut := upd2 s.lut kind k none }, .error .key) := by
  unfold lookup
  rw [hres]
  dsimp only
  unfold serve unsetEntry
  cases hg : s.groups h with
  | none => simp [hlut]
  | some loc =>
    dsimp only
    rw [hstale loc hg]
    rcases hok with q | q
    · subst q
      simp [hlut]
    · rw [hg] at q; cases q

/-- After the purge the key can be taken again. -/
theorem C37_reregister_partial (s : State P K V) (q h : P) (kind : Kind) (k : K) (hlut : s.lut kind k = some h)
    (hres : resolve s q kind k = some h) (hstale : ∀ loc, s.groups h = some loc → loc kind k = none)
    (hok : kind = .value ∨ s.groups h = none) (p : P) (loc : Kind → K → Option V) (hp : s.groups p = some loc)
    (hfree : loc kind k = none) (v : V) :
    (acquire (lookup s q kind k).1 p kind k v).2 = .ok () := by
  rw [C37_purge_partial s q h kind k hlut hres hstale hok]
  unfold acquire beginAcquire setEntry
  dsimp only
  rw [hp]
  dsimp only
  rw [hfree]
  dsimp only
  rw [upd2_same]

/-- A history: process `true` creates the group, registers service 5 and pairs a value under the same name 5, destroys the
group; the entries of its barrier services (keys 91, 92) are purged by look-ups; it creates the group again, and pairs 5. -/
def c37History : State Bool Nat Nat :=
  let s0 : State Bool Nat Nat := ⟨fun _ _ => none, fun _ => none, fun _ => .idle⟩
  let s1 := (create s0 true 91 92 0).1
  let s2 := (create s1 false 93 94 0).1
  let s3 := (acquire s2 true .service 5 7).1
  let s4 := destroy s3 true
  let s5 := (lookup (lookup s4 false .service 91).1 false .service 92).1
  let s6 := (create s5 true 91 92 0).1
  (acquire s6 true .value 5 8).1

/-- It is false for services of a re-created group: the look-up removes the entry of the *value* of the same name, and leaves
the stale entry of the service. -/
theorem C37_violated_history :
    (lookup c37History false .service 5).2 = .error .key ∧
    (lookup c37History false .service 5).1.lut .service 5 = some true ∧
    c37History.lut .value 5 = some true ∧
    (lookup c37History false .service 5).1.lut .value 5 = none ∧
    (acquire (lookup c37History false .service 5).1 true .service 5 9).2 = .error .key ∧
    (acquire (lookup c37History false .service 5).1 false .value 5 9).2 = .ok () := by
  decide

theorem C37_violated : ¬ C37_full := by
  intro h
  have := h c37History false true .service 5 (by decide) (by decide) (by
    intro loc hl
    have e : (c37History.groups true).bind (fun l => l .service 5) = none := by decide
    rw [hl] at e
    exact e)
  have h2 := congrArg (fun r => r.1.lut .service 5) this
  revert h2
  decide

/-- A creation that fails at the second barrier service leaves the entry of the first behind, which names a process that does not serve
it; the process cannot create the group any more, even after the other entry has gone. -/
theorem C37_violated_failed_creation (s : State P K V) (p : P) (enter exit : K) (v : V) (hne : enter ≠ exit)
    (hg : s.groups p = none) (hfree : s.lut .service enter = none) (h : P) (hex : s.lut .service exit = some h) :
    (create s p enter exit v).2 = .error .key ∧ (create s p enter exit v).1.lut .service enter = some p ∧
    (create s p enter exit v).1.groups p = none ∧
    (create { (create s p enter exit v).1 with lut := upd2 (create s p enter exit v).1.lut .service exit none } p enter exit v).2 =
      .error .key := by
  have hc : create s p enter exit v = ({ s with lut := upd2 s.lut .service enter (some p) }, .error .key) := by
    unfold create setEntry
    rw [hg, hfree]
    dsimp only
    rw [upd2_ne _ _ _ _ _ _ (by rintro ⟨_, q⟩; exact hne q.symm), hex]
  rw [hc]
  refine ⟨rfl, by dsimp only; rw [upd2_same], hg, ?_⟩
  unfold create setEntry
  dsimp only
  rw [hg]
  dsimp only
  rw [upd2_ne _ _ _ _ _ _ (by rintro ⟨_, q⟩; exact hne q), upd2_same]

example : let s : State Bool Nat Nat := { (init : State Bool Nat Nat) with
      lut := upd2 (fun _ _ => none) .service 92 (some false), groups := fun _ => none }
    s.lut .service 91 = none ∧ s.lut .service 92 = some false ∧ (create s true 91 92 7).2 = .error .key ∧
    (create s true 91 92 7).1.lut .service 91 = some true := by decide

/-- A group that was destroyed cannot be created again by the same process before look-ups have purged the entries of its
barrier services: `create_rpc_group` raises `KeyError`. -/
theorem C37_violated_recreate (s : State P K V) (p : P) (enter exit : K) (v : V) (hne : enter ≠ exit)
    (hg : s.groups p = none) (hfree : s.lut .service enter = none) (hfree' : s.lut .service exit = none) :
    (create s p enter exit v).2 = .ok () ∧
    (create (destroy (create s p enter exit v).1 p) p enter exit v).2 = .error .key := by
  have hc : create s p enter exit v = ({ s with
      lut := upd2 (upd2 s.lut .service enter (some p)) .service exit (some p),
      groups := upd s.groups p (some (upd2 (upd2 (fun _ _ => none) .service enter (some v)) .service exit (some v))) },
      .ok ()) := by
    unfold create setEntry
    rw [hg, hfree]
    dsimp only
    rw [upd2_ne _ _ _ _ _ _ (by rintro ⟨_, q⟩; exact hne q.symm), hfree']
  rw [hc]
  refine ⟨rfl, ?_⟩
  unfold create destroy
  dsimp only
  rw [upd_same]
  dsimp only
  unfold setEntry
  rw [upd2_ne _ _ _ _ _ _ (by rintro ⟨_, q⟩; exact hne q), upd2_same]

example : (create (destroy (create (⟨fun _ _ => none, fun _ => none, fun _ => .idle⟩ : State Nat Nat Nat) 0 91 92 0).1 0) 0 91 92 0).2 =
    .error .key := by decide

end Machin.World

namespace Machin.Barrier

/-! ### C38: the barrier -/

/-- In every interleaving, no member returns from `barrier()` before all members have called it. -/
theorem C38_safety (n : Nat) (steps : List Step) (i : Nat) (h : hasReturned (run n init steps) i) :
    ∀ j < n, hasEntered (run n init steps) j := by
  have inv := BInv.run n steps
  apply inv.passed
  unfold hasReturned at h
  by_cases hi : i = 0
  · rw [if_pos hi] at h; rw [h]; trivial
  · rw [if_neg hi] at h; exact inv.ret i h

example : hasReturned (run 2 init [.enter 1, .wait 1, .enter 0, .leader, .leader, .leader, .leader, .leader, .leader]) 1 ∧
    hasReturned (run 2 init [.enter 1, .wait 1, .enter 0, .leader, .leader, .leader, .leader, .leader, .leader]) 0 := by
  decide

/-- The other half of the property: when all members have called `barrier()`, all can still return. -/
def C38_full : Prop :=
  ∀ (n : Nat) (steps : List Step), (∀ i < n, hasEntered (run n init steps) i) →
    ∃ more, ∀ i < n, hasReturned (run n init (steps ++ more)) i

/-- A member whose event was set and cleared before it waits. -/
def Lost (s : State) (i : Nat) : Prop :=
  (s.phase i = .entered ∨ s.phase i = .waiting) ∧ s.flag i = false ∧ s.leader = .returned

/-- It never returns. -/
theorem lost_step (n : Nat) (s : State) (i : Nat) (h : Lost s i) (st : Step) : Lost (step n s st) i := by
  rcases h with ⟨hp, hf, hl⟩
  cases st with
  | enter j =>
    simp only [step]
    split
    · exact ⟨hp, hf, hl⟩
    · split
      · rw [if_neg (by rw [hl]; simp)]; exact ⟨hp, hf, hl⟩
      · split
        · rename_i ho
          have hne : i ≠ j := by
            rintro rfl
            rcases hp with q | q <;> rw [q] at ho <;> cases ho
          exact ⟨by simp only; rw [upd_ne _ _ _ _ hne]; exact hp, hf, hl⟩
        · exact ⟨hp, hf, hl⟩
  | wait j =>
    simp only [step]
    split
    · by_cases hij : i = j
      · subst hij
        refine ⟨Or.inr ?_, hf, hl⟩
        simp only
        rw [upd_same, hf]
        rfl
      · exact ⟨by simp only; rw [upd_ne _ _ _ _ hij]; exact hp, hf, hl⟩
    · exact ⟨hp, hf, hl⟩
  | leader =>
    simp only [step, hl]
    exact ⟨hp, hf, hl⟩

/-- It is false: the leader sets and clears the event of member 1 after member 1 has announced itself, but before it waits;
member 1 then waits for ever. -/
theorem C38_violated : ¬ C38_full := by
  intro h
  let steps : List Step := [.enter 0, .enter 1, .leader, .leader, .leader, .leader, .leader, .leader]
  rcases h 2 steps (by decide) with ⟨more, hm⟩
  have hlost : ∀ more : List Step, Lost (run 2 init (steps ++ more)) 1 := by
    intro more
    induction more using List.reverseRecOn with
    | nil => exact ⟨Or.inl (by decide), by decide, by decide⟩
    | append_singleton more st ih =>
      rw [← List.append_assoc]
      unfold run at ih ⊢
      rw [List.foldl_append]
      exact lost_step 2 _ 1 ih st
  have h1 := hm 1 (by decide)
  have h2 := (hlost more).1
  unfold hasReturned at h1
  simp only [Nat.one_ne_zero, if_false] at h1
  rw [h1] at h2
  rcases h2 with q | q <;> cases q

/-- It holds when all other members already wait at the moment the leader starts to release them: whatever the interleaving,
after `2 n` more steps of the leader all members have returned. -/
theorem C38_liveness_partial (n : Nat) (hn : 1 ≤ n) (steps : List Step) (hl : (run n init steps).leader = .exiting 0)
    (hw : ∀ i, 0 < i → i < n → (run n init steps).phase i = .waiting) (more : List Step)
    (hmore : 2 * n ≤ more.count .leader) : ∀ i < n, hasReturned (run n init (steps ++ more)) i := by
  have hex : Exiting n (run n init steps) :=
    { lead := Or.inr ⟨0, by omega, Or.inl hl⟩
      done := fun i h0 hi => Or.inl (hw i h0 hi)
      early := by intro i j h0 hi he hij; rw [hl] at he; cases he; omega
      early' := by intro i j h0 hi he; rw [hl] at he; cases he
      all := by intro he; rw [hl] at he; cases he }
  have e : run n init (steps ++ more) = run n (run n init steps) more := by simp [run]
  rw [e]
  have hret := hex.leader_progress more (by rw [hl]; simp only [remaining]; omega)
  have hex' := hex.run more
  intro i hi
  unfold hasReturned
  by_cases h0 : i = 0
  · rw [if_pos h0]; exact hret
  · rw [if_neg h0]; exact hex'.all hret i (by omega) hi

example : (run 3 init [.enter 2, .enter 1, .wait 1, .wait 2, .enter 0, .leader, .leader, .leader]).leader = .exiting 0 ∧
    ∀ i < 3, 0 < i → (run 3 init [.enter 2, .enter 1, .wait 1, .wait 2, .enter 0, .leader, .leader, .leader]).phase i = .waiting := by
  decide

end Machin.Barrier
