import Verif.World.LifeLemmas
import Verif.World.LifeSpec

/-!
# C254: constructing and stopping the world

`machin/parallel/distributed/_world.py:166-201, 275-319, 340-345`. A construction that fails should leave nothing behind, stopping twice should be reported by the check that is there for
it, and the rank of the world should be the rank of the process, which need not be specified. None of the three holds (`C254_violated_construct`, `C254_violated_stop`,
`C254_violated_rank`). What holds: there is at most one world (`C254_once`), the exact condition for its construction (`C254_construct`), when a failed construction leaves nothing
(`C254_keep_partial`), when stopping succeeds (`C254_stop_partial`), the rank if it is given (`C254_rank_partial`), and that all processes agree on the manager of the tables
(`C254_manager`).
-/

namespace Machin.World.Life

open Machin (PyDict)
open Spec

/-- Full statement, after every history: a failed construction changes nothing; a second `stop` raises its own error; the world has the rank and the size of the process. -/
def C254_full : Prop :=
  ∀ ops : List Op, let p := (run start ops).1
    (∀ a t e, (construct p a t).2 = .error e → (construct p a t).1 = p) ∧
    ((stop p).2 = .ok () → (stop (stop p).1).2 = .error .multiple) ∧
    (∀ a t w g, Honest a t → (construct p a t).2 = .ok w → (construct p a t).1.group = some g → w.rank = g.1 ∧ w.size = g.2)

/-- Two processes, both there. -/
def exTorch : Torch := ⟨some (0, 2), some [(0, "a"), (1, "b")]⟩

/-- `init_rpc=False` fails and leaves the process group: the same call, or one with other arguments, then fails too. -/
theorem C254_violated_construct :
    let r := construct start ⟨"a", 0, 2, true, false⟩ exTorch
    r.2 = .error .torch ∧ r.1 ≠ start ∧ (construct start ⟨"a", 0, 2, true, true⟩ exTorch).2.isOk = true ∧
      (construct r.1 ⟨"a", 0, 2, true, true⟩ exTorch).2 = .error .torch := by
  decide +kernel

/-- The second `stop` gets an error from torch: `started` was never reset. -/
theorem C254_violated_stop :
    let p := (construct start ⟨"a", 0, 2, true, true⟩ exTorch).1
    (stop p).2 = .ok () ∧ (stop (stop p).1).2 = .error .torch := by
  decide +kernel

/-- With ranks found by torch the world has rank -1. -/
theorem C254_violated_rank :
    let r := construct start ⟨"a", -1, -1, true, true⟩ exTorch
    r.2.isOk = true ∧ r.1.group = some (0, 2) ∧ curRank r.1 = .ok (-1) := by
  decide +kernel

theorem C254_violated : ¬ C254_full := by
  intro h
  have h1 := (h []).1 ⟨"a", 0, 2, true, false⟩ exTorch .torch C254_violated_construct.1
  exact C254_violated_construct.2.1 h1

/-- When a construction succeeds, and what it gives. -/
theorem C254_construct (p : Proc) (a : Args) (t : Torch) (w : W) :
    (construct p a t).2 = .ok w ↔
      p.world = none ∧ GroupOk p a t ∧ ∃ infos, Agent p a t infos ∧ ∃ m, LastName infos 0 m ∧ w = ⟨a.name, a.rank, a.size, true, rankNames infos, m⟩ := by
  have hlast : ∀ (infos : List (Nat × String)) (m : String), (rankNames infos).get? 0 = some m ↔ LastName infos 0 m := by
    intro infos m
    rw [rankNames_get]
    constructor
    · intro h
      obtain ⟨i, hi, rfl⟩ := Option.map_eq_some_iff.1 h
      obtain ⟨h1, xs, ys, h2, h3⟩ := List.find?_eq_some_iff_append.1 hi
      refine ⟨ys.reverse, xs.reverse, ?_, ?_⟩
      · have := congrArg List.reverse h2
        rw [List.reverse_reverse] at this
        rw [this]
        have : i.1 = 0 := by simpa using h1
        simp [← this]
      · intro y hy
        simpa using h3 y (List.mem_reverse.1 hy)
    · rintro ⟨xs, ys, rfl, h⟩
      have : (xs ++ (0, m) :: ys).reverse.find? (fun i => i.1 = 0) = some (0, m) := by
        rw [List.find?_eq_some_iff_append]
        refine ⟨by simp, ys.reverse, xs.reverse, by simp, ?_⟩
        intro y hy
        simpa using h y (List.mem_reverse.1 hy)
      rw [this]; rfl
  unfold construct GroupOk Agent
  cases hw : p.world with
  | some w0 => simp
  | none =>
    unfold initWorld initDist initRpc
    cases hr : a.initRpc
    · cases ha : p.agent with
      | none => cases hd : a.initDist <;> cases hg : p.group <;> cases htd : t.dist <;> simp [ha, hg]
      | some infos =>
        cases hn : (rankNames infos).get? 0 <;> cases hd : a.initDist <;> cases hg : p.group <;> cases htd : t.dist <;> simp [ha, hg, hn, ← hlast, eq_comm]
    · cases ha : p.agent with
      | some infos => cases hd : a.initDist <;> cases hg : p.group <;> cases htd : t.dist <;> simp [ha, hg]
      | none =>
        cases htr : t.rpc with
        | none => cases hd : a.initDist <;> cases hg : p.group <;> cases htd : t.dist <;> simp [ha, hg]
        | some infos =>
          cases hn : (rankNames infos).get? 0 <;> cases hd : a.initDist <;> cases hg : p.group <;> cases htd : t.dist <;> simp [ha, hg, hn, ← hlast, eq_comm]

example : (construct start ⟨"a", 0, 2, true, true⟩ exTorch).2 = .ok ⟨"a", 0, 2, true, [(0, "a"), (1, "b")], "a"⟩ := by decide +kernel

/-- So without `init_rpc` no world can be constructed, unless something else has set up rpc. -/
theorem C254_no_rpc (p : Proc) (a : Args) (t : Torch) (ha : a.initRpc = false) (hp : p.agent = none) (w : W) : (construct p a t).2 ≠ .ok w := by
  intro h
  obtain ⟨-, -, infos, h1, -⟩ := (C254_construct p a t w).1 h
  rcases h1 with ⟨h2, -⟩ | ⟨-, h3⟩
  · rw [ha] at h2; cases h2
  · rw [hp] at h3; cases h3

/-- Nothing removes the world. -/
theorem step_world (p : Proc) (op : Op) (w : W) (h : p.world = some w) : (step p op).1.world = some w ∧ ∀ w', (step p op).2 ≠ .made w' := by
  cases op with
  | construct a t => simp [step, construct, h]
  | stop =>
    unfold step stop
    rw [h]
    cases hs : w.started <;> cases ha : p.agent <;> simp [h, hs]

/-- In every history, from every state: at most one world is made, and a world that is there stays. -/
theorem C254_once (p : Proc) (ops : List Op) :
    ((run p ops).2.countP fun o => match o with | .made _ => true | _ => false) ≤ (if p.world = none then 1 else 0) ∧
      ∀ w, p.world = some w → (run p ops).1.world = some w := by
  induction ops generalizing p with
  | nil => simp [run]
  | cons op ops ih =>
    have ih := ih (step p op).1
    cases hw : p.world with
    | some w =>
      obtain ⟨h1, h2⟩ := step_world p op w hw
      have i1 := ih.1
      rw [h1] at i1
      refine ⟨?_, fun w' h' => ih.2 w' (by rw [h1, h'])⟩
      rw [run, List.countP_cons]
      cases ho : (step p op).2 with
      | made w' => exact absurd ho (h2 w')
      | stopped => simpa using i1
      | raised e => simpa using i1
    | none =>
      refine ⟨?_, fun w' h' => by cases h'⟩
      rw [run, List.countP_cons]
      have i1 := ih.1
      cases ho : (step p op).2 with
      | stopped => refine Nat.le_trans (by simpa using i1) ?_; split <;> simp
      | raised e => refine Nat.le_trans (by simpa using i1) ?_; split <;> simp
      | made w' =>
        have hs : (step p op).1.world = some w' := by
          cases op with
          | stop => simp [step, stop, hw] at ho
          | construct a t =>
            unfold step construct at ho ⊢
            rw [hw] at ho ⊢
            cases hi : initWorld p a t with
            | mk q r => cases r <;> simp_all
        rw [hs] at i1
        simpa using i1

/-- After a construction, whatever follows, the process has the name and the rank that were given; in a process without a world both raise. -/
theorem C254_current (p : Proc) (a : Args) (t : Torch) (w : W) (h : (construct p a t).2 = .ok w) (ops : List Op) :
    curName (run (construct p a t).1 ops).1 = .ok a.name ∧ curRank (run (construct p a t).1 ops).1 = .ok a.rank ∧
      curName p = .error .noWorld ∧ curRank p = .error .noWorld := by
  obtain ⟨hw, -, infos, -, m, -, hw2⟩ := (C254_construct p a t w).1 h
  rcases step_construct hw a t with ⟨q, w1, -, e3, -⟩ | ⟨q, e, -, e3, -⟩
  · rw [e3] at h ⊢
    have e4 : w1 = w := by cases h; rfl
    have hs := (C254_once { q with world := some w1 } ops).2 w1 rfl
    unfold curName curRank
    rw [hs, hw, e4, hw2]
    exact ⟨rfl, rfl, rfl, rfl⟩
  · rw [e3] at h
    cases h

example : curName (run (construct start ⟨"a", 0, 2, true, true⟩ exTorch).1 [.stop, .stop]).1 = .ok "a" := by decide +kernel

/-- A process group that was left behind by a failed construction: every later construction with `init_dist`, whatever is done, raises an error. -/
theorem C254_retry (p : Proc) (hg : p.group ≠ none) (ops : List Op) (a : Args) (t : Torch) (ha : a.initDist = true) (w : W) :
    (construct (run p ops).1 a t).2 ≠ .ok w := by
  have key : (run p ops).1.group ≠ none := by
    induction ops generalizing p with
    | nil => exact hg
    | cons op ops ih =>
      refine ih _ ?_
      cases op with
      | stop =>
        unfold step stop
        cases hw : p.world with
        | none => exact hg
        | some w => cases hs : w.started <;> cases ha : p.agent <;> simp [hs, hg]
      | construct a t =>
        have h1 := initWorld_group p a t hg
        cases hw : p.world with
        | some w => simpa [step, construct, hw] using hg
        | none =>
          rcases step_construct hw a t with ⟨q, w, e1, -, e2⟩ | ⟨q, e, e1, -, e2⟩ <;> (rw [e1] at h1; rw [e2]; exact fun hc => hg (h1.symm.trans hc))
  intro h
  obtain ⟨-, h2, -⟩ := (C254_construct _ a t w).1 h
  exact key (h2 ha).1

example : (construct start ⟨"a", 0, 2, true, false⟩ exTorch).1.group ≠ none := by decide +kernel

/-- Exactly when a failed construction leaves everything as it was. -/
theorem C254_keep_partial (p : Proc) (a : Args) (t : Torch) (e : Fail) (h : (construct p a t).2 = .error e) :
    (construct p a t).1 = p ↔
      p.world ≠ none ∨ ¬ GroupOk p a t ∨ (a.initDist = false ∧ (a.initRpc = true → p.agent ≠ none ∨ t.rpc = none)) := by
  unfold GroupOk
  revert h
  unfold construct
  cases hw : p.world with
  | some w0 => simp
  | none =>
    obtain ⟨pw, pg, pa⟩ := p
    cases hw
    unfold initWorld initDist initRpc
    cases hr : a.initRpc
    · cases pa with
      | none => cases hd : a.initDist <;> cases pg <;> cases htd : t.dist <;> simp
      | some infos =>
        cases hn : (rankNames infos).get? 0 <;> cases hd : a.initDist <;> cases pg <;> cases htd : t.dist <;> simp [hn]
    · cases pa with
      | some infos => cases hd : a.initDist <;> cases pg <;> cases htd : t.dist <;> simp
      | none =>
        cases htr : t.rpc with
        | none => cases hd : a.initDist <;> cases pg <;> cases htd : t.dist <;> simp
        | some infos =>
          cases hn : (rankNames infos).get? 0 <;> cases hd : a.initDist <;> cases pg <;> cases htd : t.dist <;> simp [hn]

example : (construct start ⟨"a", 0, 2, true, true⟩ ⟨none, none⟩).2 = .error .torch := by decide +kernel

/-- In every history `started` is `True`, so the check of `stop` never raises its error. -/
theorem C254_started (ops : List Op) : (∀ w, (run start ops).1.world = some w → w.started = true) ∧ (stop (run start ops).1).2 ≠ .error .multiple := by
  have key : ∀ (ops : List Op) (p : Proc), (∀ w, p.world = some w → w.started = true) → ∀ w, (run p ops).1.world = some w → w.started = true := by
    intro ops
    induction ops with
    | nil => intro p h; exact h
    | cons op ops ih =>
      intro p h
      refine ih _ ?_
      cases hw : p.world with
      | some w0 =>
        intro w hw'
        rw [(step_world p op w0 hw).1] at hw'
        exact h w (by rw [hw, hw'])
      | none =>
        intro w hw'
        cases op with
        | stop => simp [step, stop, hw] at hw'
        | construct a t =>
          have hc := C254_construct p a t w
          have hiw := initWorld_world p a t
          rcases step_construct hw a t with ⟨q, w1, e1, e3, e2⟩ | ⟨q, e, e1, -, e2⟩
          · rw [e2] at hw'
            have e4 : w1 = w := Option.some.inj hw'
            obtain ⟨-, -, infos, -, m, -, rfl⟩ := hc.1 (by rw [e3, e4])
            rfl
          · rw [e1] at hiw
            rw [e2] at hw'
            have hiw : q.world = p.world := hiw
            rw [hiw, hw] at hw'
            cases hw'
  have h1 := key ops start (by intro w h; cases h)
  refine ⟨h1, ?_⟩
  unfold stop
  cases hw : (run start ops).1.world with
  | none => simp
  | some w => cases ha : (run start ops).1.agent <;> simp [h1 w hw]

/-- `stop` succeeds exactly when there is a world and an agent; afterwards every `stop` and every construction raises, for ever. -/
theorem C254_stop_partial (ops : List Op) : let p := (run start ops).1
    ((stop p).2 = .ok () ↔ p.world ≠ none ∧ p.agent ≠ none) ∧
    ((stop p).2 = .ok () → ∀ more : List Op, ∀ o ∈ (run (stop p).1 more).2, o = .raised .torch ∨ o = .raised .once) := by
  intro p
  have hst := (C254_started ops).1
  have hiff : (stop p).2 = .ok () ↔ p.world ≠ none ∧ p.agent ≠ none := by
    unfold stop
    cases hw : p.world with
    | none => simp
    | some w => cases ha : p.agent <;> simp [hst w hw]
  refine ⟨hiff, ?_⟩
  intro h
  obtain ⟨h1, h2⟩ := hiff.1 h
  obtain ⟨w, hw⟩ := Option.ne_none_iff_exists'.1 h1
  have hs := hst w hw
  have hq : (stop p).1.world = some w ∧ (stop p).1.agent = none := by
    unfold stop
    rw [hw]
    cases ha : p.agent with
    | none => exact absurd ha h2
    | some l => simp [hs]
  generalize (stop p).1 = q at hq
  intro more
  induction more with
  | nil => intro o ho; cases ho
  | cons op more ih =>
    have hstep : (step q op).1 = q ∧ ((step q op).2 = .raised .torch ∨ (step q op).2 = .raised .once) := by
      cases op with
      | construct a t => simp [step, construct, hq.1]
      | stop => simp [step, stop, hq.1, hq.2, hs]
    intro o ho
    rw [run, List.mem_cons] at ho
    rcases ho with rfl | ho
    · exact hstep.2
    · rw [hstep.1] at ho
      exact ih o ho

example : (stop (run start [.construct ⟨"a", 0, 2, true, true⟩ exTorch]).1).2 = .ok () := by decide +kernel

/-- With a rank and a size that are given, the world has those of the process. -/
theorem C254_rank_partial (p : Proc) (a : Args) (t : Torch) (w : W) (g : Nat × Nat) (ht : Honest a t) (hd : a.initDist = true) (hr : 0 ≤ a.rank) (hs : 0 ≤ a.size)
    (h : (construct p a t).2 = .ok w) (hg : (construct p a t).1.group = some g) : w.rank = g.1 ∧ w.size = g.2 ∧ w.name = a.name ∧
      ∀ ranks, relativeRank w ranks = (Group.createCollective ranks g.1).current := by
  obtain ⟨hw, h2, infos, -, m, -, rfl⟩ := (C254_construct p a t w).1 h
  obtain ⟨h3, h4⟩ := h2 hd
  obtain ⟨g', hg'⟩ := Option.ne_none_iff_exists'.1 h4
  have e : g' = g := by
    revert hg
    unfold construct
    rw [hw]
    unfold initWorld
    rw [hd, if_pos rfl]
    have h5 : initDist p t = some { p with group := some g' } := by unfold initDist; rw [h3, hg']
    rw [h5]
    simp only
    split
    · intro hg
      rename_i q w' hq
      split at hq
      · cases hq
      · rename_i p2 hp2
        have h6 : p2.group = some g' := by
          split at hp2
          · obtain ⟨-, l, -, rfl⟩ := initRpc_world hp2; rfl
          · cases hp2; rfl
        split at hq
        · cases hq
        · split at hq
          · cases hq
          · cases hq; rw [h6] at hg; exact Option.some.inj hg
    · intro hg
      rename_i q e' hq
      split at hq
      · cases hq; exact Option.some.inj hg
      · rename_i p2 hp2
        have h6 : p2.group = some g' := by
          split at hp2
          · obtain ⟨-, l, -, rfl⟩ := initRpc_world hp2; rfl
          · cases hp2; rfl
        split at hq
        · cases hq; rw [h6] at hg; exact Option.some.inj hg
        · split at hq
          · cases hq; rw [h6] at hg; exact Option.some.inj hg
          · cases hq
  have hh := ht g' hg'
  rw [e] at hh
  refine ⟨hh.1 hr, hh.2 hs, rfl, ?_⟩
  intro ranks
  have hrank := hh.1 hr
  unfold relativeRank Group.createCollective
  simp only [hrank]

example : Honest ⟨"a", 0, 2, true, true⟩ exTorch ∧ (construct start ⟨"a", 0, 2, true, true⟩ exTorch).1.group = some (0, 2) := by
  refine ⟨?_, by decide +kernel⟩
  intro g h
  cases h
  decide

/-- Without a rank the process is a member of no collective group. -/
theorem C254_relative (p : Proc) (a : Args) (t : Torch) (w : W) (hr : a.rank < 0) (h : (construct p a t).2 = .ok w) (ranks : List Nat) : relativeRank w ranks = none := by
  obtain ⟨-, -, infos, -, m, -, rfl⟩ := (C254_construct p a t w).1 h
  unfold relativeRank
  cases hk : a.rank with
  | ofNat k => rw [hk] at hr; exact absurd hr (by simp)
  | negSucc k => simp

/-- `rank_name_map` holds the infos, if ids are distinct. -/
theorem C254_names (p : Proc) (a : Args) (t : Torch) (w : W) (infos : List (Nat × String)) (hi : Agent p a t infos) (hn : (infos.map (·.1)).Nodup)
    (h : (construct p a t).2 = .ok w) : (∀ k s, w.names.get? k = some s ↔ (k, s) ∈ infos) ∧ (0, w.manager) ∈ infos := by
  obtain ⟨-, -, infos', h1, m, ⟨xs, ys, hm, -⟩, rfl⟩ := (C254_construct p a t w).1 h
  have e : infos' = infos := by
    rcases hi with ⟨a1, a2, a3⟩ | ⟨a1, a3⟩ <;> rcases h1 with ⟨b1, b2, b3⟩ | ⟨b1, b3⟩
    · rw [a3] at b3; exact (Option.some.inj b3).symm
    · rw [a1] at b1; cases b1
    · rw [a1] at b1; cases b1
    · rw [a3] at b3; exact (Option.some.inj b3).symm
  subst e
  exact ⟨fun k s => rankNames_mem hn k s, by simp [hm]⟩

/-- Two processes which are told the same names, in any order, agree on all names and on the manager of the tables. -/
theorem C254_manager (p p' : Proc) (a a' : Args) (t t' : Torch) (w w' : W) (infos infos' : List (Nat × String)) (hi : Agent p a t infos) (hi' : Agent p' a' t' infos')
    (hp : ∀ x, x ∈ infos ↔ x ∈ infos') (hn : (infos.map (·.1)).Nodup) (hn' : (infos'.map (·.1)).Nodup)
    (h : (construct p a t).2 = .ok w) (h' : (construct p' a' t').2 = .ok w') : w.manager = w'.manager ∧ ∀ k, w.names.get? k = w'.names.get? k := by
  obtain ⟨h1, h2⟩ := C254_names p a t w infos hi hn h
  obtain ⟨h1', h2'⟩ := C254_names p' a' t' w' infos' hi' hn' h'
  constructor
  · have e1 := (h1 0 w.manager).2 h2
    have e2 := (h1 0 w'.manager).2 ((hp _).2 h2')
    rw [e1] at e2
    exact Option.some.inj e2
  · intro k
    apply Option.ext
    intro s
    show w.names.get? k = some s ↔ w'.names.get? k = some s
    rw [h1, h1', hp]

example : Agent start ⟨"a", 0, 2, true, true⟩ exTorch [(0, "a"), (1, "b")] ∧
    Agent start ⟨"b", 1, 2, true, true⟩ ⟨some (1, 2), some [(1, "b"), (0, "a")]⟩ [(1, "b"), (0, "a")] ∧
    (construct start ⟨"b", 1, 2, true, true⟩ ⟨some (1, 2), some [(1, "b"), (0, "a")]⟩).2.isOk = true :=
  ⟨Or.inl ⟨rfl, rfl, rfl⟩, Or.inl ⟨rfl, rfl, rfl⟩, by decide +kernel⟩

end Machin.World.Life
