import Verif.Group.Helper
import Verif.World.Lemmas

/-! # Lemmas about the creation of model servers -/

namespace Machin.Group

open World World.Spec

/-- The table the operations of one process should leave, and what they should return. -/
def seqRun (p : Nat) (m : World.Spec.Table Nat Key Val) : List Op → World.Spec.Table Nat Key Val × List (Except Err (Option Val))
  | [] => (m, [])
  | .acquire kind k v :: ops =>
    let r := World.Spec.absStep m (.acquire p kind k v)
    let t := seqRun p r.1 ops
    (t.1, r.2 :: t.2)
  | .get kind k :: ops =>
    let r := World.Spec.absStep m (.get p kind k)
    let t := seqRun p r.1 ops
    (t.1, r.2 :: t.2)
  | .barrier :: ops => seqRun p m ops

theorem seqRun_append (p : Nat) (m : World.Spec.Table Nat Key Val) (a b : List Op) :
    seqRun p m (a ++ b) = ((seqRun p (seqRun p m a).1 b).1, (seqRun p m a).2 ++ (seqRun p (seqRun p m a).1 b).2) := by
  induction a generalizing m with
  | nil => rfl
  | cons o a ih =>
    cases o with
    | acquire kind k v => simp only [List.cons_append, seqRun, ih]
    | get kind k => simp only [List.cons_append, seqRun, ih]
    | barrier => simp only [List.cons_append, seqRun, ih]

/-- The table with the entries of the servers below `n`. -/
def fullTable (p n : Nat) : World.Spec.Table Nat Key Val := fun kind k =>
  match kind, k with
  | .value, .server i => if i < n then some (p, .accessor p i) else none
  | .value, .oServer i => if i < n then some (p, .oAccessor p i) else none
  | .service, .push i => if i < n then some (p, .pushMethod p i) else none
  | .service, .pull i => if i < n then some (p, .pullMethod p i) else none
  | _, _ => none

/-- What the construction of one server returns, step by step. -/
def ownOne (p i : Nat) : List (Except Err (Option Val)) := [.ok none, .ok none, .ok none, .ok (some (.oAccessor p i)), .ok none]

theorem seqRun_server (p i : Nat) : seqRun p (fullTable p i) (serverOps p i) = (fullTable p (i + 1), ownOne p i) := by
  have key : ∀ kind k, upd2 (upd2 (upd2 (upd2 (fullTable p i) .value (.oServer i) (some (p, .oAccessor p i)))
      .service (.push i) (some (p, .pushMethod p i))) .service (.pull i) (some (p, .pullMethod p i)))
      .value (.server i) (some (p, .accessor p i)) kind k = fullTable p (i + 1) kind k := by
    intro kind k
    cases kind <;> cases k <;> rename_i j <;> simp [upd2_apply, fullTable] <;>
      (by_cases h : j = i
       · simp [h]
       · have : (j < i + 1) = (j < i) := by apply propext; omega
         simp [h, this])
  have e1 : fullTable p i .value (.oServer i) = none := by simp [fullTable]
  have e2 : (upd2 (fullTable p i) .value (.oServer i) (some (p, .oAccessor p i))) .service (.push i) = none := by
    simp [upd2_apply, fullTable]
  have e3 : upd2 (upd2 (fullTable p i) .value (.oServer i) (some (p, .oAccessor p i))) .service (.push i)
      (some (p, .pushMethod p i)) .service (.pull i) = none := by simp [upd2_apply, fullTable]
  have e4 : upd2 (upd2 (upd2 (fullTable p i) .value (.oServer i) (some (p, .oAccessor p i))) .service (.push i)
      (some (p, .pushMethod p i))) .service (.pull i) (some (p, .pullMethod p i)) .value (.oServer i) =
      some (p, .oAccessor p i) := by simp [upd2_apply]
  have e5 : upd2 (upd2 (upd2 (fullTable p i) .value (.oServer i) (some (p, .oAccessor p i))) .service (.push i)
      (some (p, .pushMethod p i))) .service (.pull i) (some (p, .pullMethod p i)) .value (.server i) = none := by
    simp [upd2_apply, fullTable]
  simp only [serverOps, seqRun, absStep, e1, e2, e3, e4, e5]
  exact Prod.ext (funext fun kind => funext fun k => key kind k) rfl

/-- What the construction of the servers returns. -/
def own (p n : Nat) : List (Except Err (Option Val)) := (List.range n).flatMap (ownOne p)

theorem seqRun_servers (p n : Nat) :
    seqRun p (fun _ _ => none) ((List.range n).flatMap (serverOps p)) = (fullTable p n, own p n) := by
  induction n with
  | zero =>
    refine Prod.ext (funext fun kind => funext fun k => ?_) rfl
    cases kind <;> cases k <;> simp [seqRun, fullTable]
  | succ n ih =>
    rw [List.range_succ, List.flatMap_append, seqRun_append, ih]
    simp only [List.flatMap_cons, List.flatMap_nil, List.append_nil]
    rw [seqRun_server]
    simp [own, List.range_succ]

theorem own_ok {p n : Nat} {r : Except Err (Option Val)} (h : r ∈ own p n) : ∃ v, r = .ok v := by
  unfold own at h
  rcases List.mem_flatMap.1 h with ⟨i, _, hi⟩
  simp only [ownOne, List.mem_cons, List.not_mem_nil, or_false] at hi
  rcases hi with rfl | rfl | rfl | rfl | rfl <;> exact ⟨_, rfl⟩

/-- What the look-ups should return. -/
def expected (first num : Nat) : List (Except Err (Option Val)) :=
  (List.range num).map fun i => .ok (some (.accessor first i))

/-- What a process returns before the barrier. -/
def base (num first p : Nat) : List (Except Err (Option Val)) := if p = first then own p num else []

/-- The look-ups from number `j` on. -/
def lookupsFrom (num j : Nat) : List Op := ((List.range num).drop j).map fun i => .get .value (.server i)

/-- A process before the barrier. -/
def Before (num first : Nat) (s : HState) (p : Nat) : Prop :=
  s.todo p = .barrier :: lookups num ∧ s.results p = base num first p

/-- A process after the barrier that has done `j` look-ups. -/
def After (num first : Nat) (members : List Nat) (s : HState) (p : Nat) : Prop :=
  (∀ q ∈ members, s.entered q = true) ∧
  ∃ j ≤ num, s.todo p = lookupsFrom num j ∧ s.results p = base num first p ++ (expected first num).take j

/-- The first process is making the servers. -/
def Working (num first : Nat) (members : List Nat) (s : HState) : Prop :=
  ∃ m o rest tail, Rep s.tables m ∧ s.todo first = (o :: rest) ++ .barrier :: lookups num ∧ .barrier ∉ o :: rest ∧
    s.entered first = false ∧ seqRun first m (o :: rest) = (fullTable first num, tail) ∧
    s.results first ++ tail = own first num ∧ (∀ p ∈ members, p ≠ first → Before num first s p)

/-- The servers are made. -/
def Made (num first : Nat) (members : List Nat) (s : HState) : Prop :=
  Rep s.tables (fullTable first num) ∧ ∀ p ∈ members, Before num first s p ∨ After num first members s p

/-- The invariant. -/
structure HInv (num first : Nat) (members : List Nat) (s : HState) : Prop where
  phase : Working num first members s ∨ Made num first members s
  outside : ∀ p, p ∉ members → s.todo p = []
  entered : ∀ p ∈ members, s.entered p = true ∨ .barrier ∈ s.todo p

theorem lookupsFrom_lt {num j : Nat} (h : j < num) :
    lookupsFrom num j = .get .value (.server j) :: lookupsFrom num (j + 1) := by
  unfold lookupsFrom
  rw [List.drop_eq_getElem_cons (by simpa using h)]
  simp

theorem lookupsFrom_end {num j : Nat} (h : num ≤ j) : lookupsFrom num j = [] := by
  unfold lookupsFrom
  rw [List.drop_eq_nil_of_le (by simpa using h)]
  rfl

theorem barrier_not_mem_lookupsFrom (num j : Nat) : Op.barrier ∉ lookupsFrom num j := by
  unfold lookupsFrom
  intro h
  rcases List.mem_map.1 h with ⟨i, _, hi⟩
  cases hi

theorem expected_take {first num j : Nat} (h : j < num) :
    (expected first num).take (j + 1) = (expected first num).take j ++ [.ok (some (.accessor first j))] := by
  rw [List.take_add_one]
  unfold expected
  rw [List.getElem?_map, List.getElem?_range h]
  rfl

theorem barrier_not_mem_servers (p n : Nat) : Op.barrier ∉ (List.range n).flatMap (serverOps p) := by
  intro h
  rcases List.mem_flatMap.1 h with ⟨i, _, hi⟩
  simp [serverOps] at hi

theorem HInv.init (num first : Nat) (members : List Nat) (hf : first ∈ members) :
    HInv num first members (hinit num first members) := by
  have hrep : Rep (hinit num first members).tables (fun _ _ => none) := Rep.init
  have hb : ∀ p ∈ members, p ≠ first → Before num first (hinit num first members) p := by
    intro p hp hne
    refine ⟨?_, ?_⟩
    · simp [hinit, hp, helperOps, hne]
    · simp [hinit, base, hne]
  refine ⟨?_, ?_, ?_⟩
  · have hs := seqRun_servers first num
    have htodo : (hinit num first members).todo first =
        (List.range num).flatMap (serverOps first) ++ .barrier :: lookups num := by simp [hinit, hf, helperOps]
    have hnb := barrier_not_mem_servers first num
    cases ho : (List.range num).flatMap (serverOps first) with
    | nil =>
      right
      rw [ho] at hs htodo
      have hs1 : (fun _ _ => none : World.Spec.Table Nat Key Val) = fullTable first num := congrArg Prod.fst hs
      have hs2 : [] = own first num := congrArg Prod.snd hs
      refine ⟨hs1 ▸ hrep, fun p hp => Or.inl ?_⟩
      by_cases hne : p = first
      · subst hne
        exact ⟨htodo, by simp [hinit, base, ← hs2]⟩
      · exact hb p hp hne
    | cons o rest =>
      left
      rw [ho] at hs htodo hnb
      exact ⟨_, o, rest, own first num, hrep, htodo, hnb, rfl, hs, by simp [hinit], hb⟩
  · intro p hp
    simp [hinit, hp]
  · intro p hp
    right
    simp [hinit, hp, helperOps]

theorem hstep_acquire {members : List Nat} {s : HState} {p : Nat} {kind : World.Kind} {k : Key} {v : Val} {rest : List Op}
    (h : s.todo p = .acquire kind k v :: rest) :
    hstep members s p = s.done p (World.acquire s.tables p kind k v).1 rest
      ((World.acquire s.tables p kind k v).2.map fun _ => none) := by
  unfold hstep; rw [h]

theorem hstep_get {members : List Nat} {s : HState} {p : Nat} {kind : World.Kind} {k : Key} {rest : List Op}
    (h : s.todo p = .get kind k :: rest) :
    hstep members s p = s.done p (World.lookup s.tables p kind k).1 rest
      ((World.lookup s.tables p kind k).2.map some) := by
  unfold hstep; rw [h]

theorem hstep_nil {members : List Nat} {s : HState} {p : Nat} (h : s.todo p = []) : hstep members s p = s := by
  unfold hstep; rw [h]

theorem hstep_barrier {members : List Nat} {s : HState} {p : Nat} {rest : List Op} (h : s.todo p = .barrier :: rest) :
    hstep members s p = if s.entered p then
      if members.all s.entered then { s with todo := World.upd s.todo p rest } else s
      else { s with entered := World.upd s.entered p true } := by
  unfold hstep; rw [h]

theorem own_mem_of_append {p n : Nat} {a b : List (Except Err (Option Val))} {r : Except Err (Option Val)}
    (h : a ++ r :: b = own p n) : ∃ v, r = .ok v := own_ok (p := p) (n := n) (by rw [← h]; simp)

/-- A step of the first process while it makes the servers: the operation succeeds. -/
theorem working_first {num first : Nat} {members : List Nat} {s : HState} (h : Working num first members s) :
    ∃ o rest t m' tail r, s.todo first = (o :: rest) ++ .barrier :: lookups num ∧ .barrier ∉ o :: rest ∧
      hstep members s first = s.done first t (rest ++ .barrier :: lookups num) (.ok r) ∧ Rep t m' ∧
      seqRun first m' rest = (fullTable first num, tail) ∧ s.results first ++ .ok r :: tail = own first num := by
  rcases h with ⟨m, o, rest, tail, hrep, htodo, hnb, hent, hseq, hres, hb⟩
  cases o with
  | barrier => exact absurd (by simp) hnb
  | acquire kind k v =>
    have hst := hrep.step (.acquire first kind k v)
    simp only [seqRun] at hseq
    have h1 := congrArg Prod.fst hseq
    have h2 := congrArg Prod.snd hseq
    simp only at h1 h2
    rw [← h2] at hres
    rcases own_mem_of_append hres with ⟨r, hr⟩
    refine ⟨.acquire kind k v, rest, _, _, (seqRun first (absStep m (.acquire first kind k v)).1 rest).2, r, htodo, hnb, ?_,
      hst.1, Prod.ext h1 rfl, by rw [← hr]; exact hres⟩
    rw [hstep_acquire (rest := rest ++ .barrier :: lookups num) (by rw [htodo]; rfl)]
    have he : (World.acquire s.tables first kind k v).2.map (fun _ => (none : Option Val)) = .ok r := by
      rw [← hr]; exact hst.2
    rw [he]
    rfl
  | get kind k =>
    have hst := hrep.step (.get first kind k)
    simp only [seqRun] at hseq
    have h1 := congrArg Prod.fst hseq
    have h2 := congrArg Prod.snd hseq
    simp only at h1 h2
    rw [← h2] at hres
    rcases own_mem_of_append hres with ⟨r, hr⟩
    refine ⟨.get kind k, rest, _, _, (seqRun first (absStep m (.get first kind k)).1 rest).2, r, htodo, hnb, ?_,
      hst.1, Prod.ext h1 rfl, by rw [← hr]; exact hres⟩
    rw [hstep_get (rest := rest ++ .barrier :: lookups num) (by rw [htodo]; rfl)]
    have he : (World.lookup s.tables first kind k).2.map some = .ok r := by
      rw [← hr]; exact hst.2
    rw [he]
    rfl

theorem done_todo_same (s : HState) (p : Nat) (t : World.State Nat Key Val) (rest : List Op) (r : Option Val) :
    (s.done p t rest (.ok r)).todo p = rest := by simp [HState.done, upd_same]

theorem done_todo_ne (s : HState) (p q : Nat) (t : World.State Nat Key Val) (rest : List Op) (r : Option Val) (h : q ≠ p) :
    (s.done p t rest (.ok r)).todo q = s.todo q := by simp [HState.done, upd_ne _ _ _ _ h]

theorem done_results_same (s : HState) (p : Nat) (t : World.State Nat Key Val) (rest : List Op) (r : Option Val) :
    (s.done p t rest (.ok r)).results p = s.results p ++ [.ok r] := by simp [HState.done, upd_same]

theorem done_results_ne (s : HState) (p q : Nat) (t : World.State Nat Key Val) (rest : List Op) (r : Option Val) (h : q ≠ p) :
    (s.done p t rest (.ok r)).results q = s.results q := by simp [HState.done, upd_ne _ _ _ _ h]

theorem done_entered (s : HState) (p : Nat) (t : World.State Nat Key Val) (rest : List Op) (r : Except Err (Option Val)) :
    (s.done p t rest r).entered = s.entered := rfl

theorem Before.done {num first : Nat} {s : HState} {p q : Nat} (h : Before num first s q) (hne : q ≠ p)
    (t : World.State Nat Key Val) (rest : List Op) (r : Option Val) : Before num first (s.done p t rest (.ok r)) q :=
  ⟨by rw [done_todo_ne _ _ _ _ _ _ hne]; exact h.1, by rw [done_results_ne _ _ _ _ _ _ hne]; exact h.2⟩

theorem After.done {num first : Nat} {members : List Nat} {s : HState} {p q : Nat} (h : After num first members s q)
    (hne : q ≠ p) (t : World.State Nat Key Val) (rest : List Op) (r : Option Val) :
    After num first members (s.done p t rest (.ok r)) q := by
  rcases h with ⟨he, j, hj, ht, hr⟩
  exact ⟨he, j, hj, by rw [done_todo_ne _ _ _ _ _ _ hne]; exact ht, by rw [done_results_ne _ _ _ _ _ _ hne]; exact hr⟩

/-- Entering the barrier. -/
theorem HInv.enter {num first : Nat} {members : List Nat} {s : HState} (h : HInv num first members s) (p : Nat)
    (hb : Before num first s p) (hp : p ∈ members) (hw : Working num first members s → p ≠ first) :
    HInv num first members { s with entered := World.upd s.entered p true } := by
  refine ⟨?_, h.outside, ?_⟩
  · rcases h.phase with hw' | hm
    · left
      have hne := hw hw'
      rcases hw' with ⟨m, o, rest, tail, hrep, htodo, hnb, hent, hseq, hres, hbe⟩
      exact ⟨m, o, rest, tail, hrep, htodo, hnb, by
        show World.upd s.entered p true first = false
        rw [upd_ne _ _ _ _ (fun e => hne e.symm)]; exact hent, hseq, hres, hbe⟩
    · right
      refine ⟨hm.1, fun q hq => ?_⟩
      rcases hm.2 q hq with hbq | ⟨he, j, hj, ht, hr⟩
      · exact Or.inl hbq
      · refine Or.inr ⟨fun q' hq' => ?_, j, hj, ht, hr⟩
        show World.upd s.entered p true q' = true
        by_cases e : q' = p
        · subst e; exact upd_same _ _ _
        · rw [upd_ne _ _ _ _ e]; exact he q' hq'
  · intro q hq
    by_cases e : q = p
    · subst e; left; exact upd_same _ _ _
    · rcases h.entered q hq with h1 | h1
      · left
        show World.upd s.entered p true q = true
        rw [upd_ne _ _ _ _ e]; exact h1
      · exact Or.inr h1

theorem HInv.step {num first : Nat} {members : List Nat} {s : HState} (hf : first ∈ members) (h : HInv num first members s)
    (p : Nat) : HInv num first members (hstep members s p) := by
  by_cases hp' : p ∉ members
  · rw [hstep_nil (h.outside p hp')]; exact h
  have hp : p ∈ members := Decidable.not_not.1 hp'
  rcases h.phase with hw | hm
  · by_cases hpf : p = first
    · subst hpf
      rcases hw with ⟨m0, o0, rest0, tail0, hrep0, htodo0, hnb0, hent0, hseq0, hres0, hbe0⟩
      rcases working_first ⟨m0, o0, rest0, tail0, hrep0, htodo0, hnb0, hent0, hseq0, hres0, hbe0⟩ with
        ⟨o, rest, t, m', tail, r, htodo, hnb, hst, hrep, hseq, hres⟩
      rw [hst]
      refine ⟨?_, ?_, ?_⟩
      · cases rest with
        | nil =>
          right
          have h1 : m' = fullTable p num := congrArg Prod.fst hseq
          have h2 : [] = tail := congrArg Prod.snd hseq
          refine ⟨by rw [← h1]; exact hrep, fun q hq => Or.inl ?_⟩
          by_cases hqf : q = p
          · subst hqf
            refine ⟨by rw [done_todo_same]; rfl, ?_⟩
            rw [done_results_same]
            unfold base
            rw [if_pos rfl, ← hres, ← h2]
          · exact (hbe0 q hq hqf).done hqf _ _ _
        | cons o' rest' =>
          left
          refine ⟨m', o', rest', tail, hrep, by rw [done_todo_same], ?_, hent0, hseq, ?_, ?_⟩
          · intro hc; exact hnb (List.mem_cons_of_mem _ hc)
          · rw [done_results_same, List.append_assoc]; exact hres
          · intro q hq hqf; exact (hbe0 q hq hqf).done hqf _ _ _
      · intro q hq
        rw [done_todo_ne _ _ _ _ _ _ (fun e : q = p => hq (e ▸ hf))]
        exact h.outside q hq
      · intro q hq
        by_cases hqf : q = p
        · subst hqf; right; rw [done_todo_same]; simp
        · rw [done_todo_ne _ _ _ _ _ _ hqf]; exact h.entered q hq
    · have hb : Before num first s p := by
        rcases hw with ⟨_, _, _, _, _, _, _, _, _, _, hbe⟩
        exact hbe p hp hpf
      rw [hstep_barrier hb.1]
      split
      · split
        · rename_i hall
          have hent : s.entered first = false := by rcases hw with ⟨_, _, _, _, _, _, _, hent, _⟩; exact hent
          have := List.all_eq_true.1 hall first hf
          rw [hent] at this; cases this
        · exact h
      · exact h.enter p hb hp (fun _ => hpf)
  · rcases hm.2 p hp with hb | ha
    · rw [hstep_barrier hb.1]
      split
      · split
        · rename_i hent hall
          have hall' : ∀ q ∈ members, s.entered q = true := List.all_eq_true.1 hall
          refine ⟨Or.inr ⟨hm.1, fun q hq => ?_⟩, ?_, fun q hq => Or.inl (hall' q hq)⟩
          · by_cases e : q = p
            · subst e
              refine Or.inr ⟨hall', 0, Nat.zero_le _, ?_, by simpa using hb.2⟩
              show World.upd s.todo q (lookups num) q = _
              rw [upd_same]
              rfl
            · rcases hm.2 q hq with hbq | ⟨he, j, hj, ht, hr⟩
              · refine Or.inl ⟨?_, hbq.2⟩
                show World.upd s.todo p (lookups num) q = _
                rw [upd_ne _ _ _ _ e]; exact hbq.1
              · refine Or.inr ⟨he, j, hj, ?_, hr⟩
                show World.upd s.todo p (lookups num) q = _
                rw [upd_ne _ _ _ _ e]; exact ht
          · intro q hq
            show World.upd s.todo p (lookups num) q = _
            rw [upd_ne _ _ _ _ (fun e : q = p => hq (e ▸ hp))]
            exact h.outside q hq
        · exact h
      · refine h.enter p hb hp ?_
        rintro ⟨m, o, rest, tail, _, htodo, hnb, _⟩ e
        subst e
        rw [hb.1] at htodo
        have := (List.cons.inj htodo).1
        exact hnb (by rw [← this]; simp)
    · rcases ha with ⟨he, j, hj, ht, hr⟩
      by_cases hjn : j < num
      · have hst := hm.1.step (.get p .value (.server j))
        have hft : fullTable first num .value (.server j) = some (first, .accessor first j) := by simp [fullTable, hjn]
        simp only [absStep, hft] at hst
        have he2 : (World.lookup s.tables p .value (.server j)).2.map some = .ok (some (.accessor first j)) := hst.2
        rw [hstep_get (by rw [ht, lookupsFrom_lt hjn]), he2]
        refine ⟨Or.inr ⟨hst.1, fun q hq => ?_⟩, ?_, ?_⟩
        · by_cases e : q = p
          · subst e
            refine Or.inr ⟨he, j + 1, hjn, by rw [done_todo_same], ?_⟩
            rw [done_results_same, hr, expected_take hjn, List.append_assoc]
          · rcases hm.2 q hq with hbq | haq
            · exact Or.inl (hbq.done e _ _ _)
            · exact Or.inr (haq.done e _ _ _)
        · intro q hq
          rw [done_todo_ne _ _ _ _ _ _ (fun e : q = p => hq (e ▸ hp))]
          exact h.outside q hq
        · intro q hq
          exact Or.inl (he q hq)
      · rw [hstep_nil (by rw [ht, lookupsFrom_end (by omega)])]
        exact h

theorem HInv.run {num first : Nat} {members : List Nat} (hf : first ∈ members) (schedule : List Nat) :
    HInv num first members (hrun members (hinit num first members) schedule) := by
  have key : ∀ s, HInv num first members s → HInv num first members (hrun members s schedule) := by
    induction schedule with
    | nil => intro s h; exact h
    | cons p ps ih => intro s h; exact ih _ (h.step hf p)
  exact key _ (HInv.init num first members hf)

/-! ### Progress -/

/-- What is left to do. -/
def left (s : HState) (p : Nat) : Nat := (s.todo p).length + (if s.entered p then 0 else 1)

theorem sum_lt {l : List Nat} {f g : Nat → Nat} {p : Nat} (hp : p ∈ l) (hle : ∀ q ∈ l, f q ≤ g q) (hlt : f p < g p) :
    (l.map f).sum < (l.map g).sum := by
  have hle' : ∀ l' : List Nat, (∀ q ∈ l', f q ≤ g q) → (l'.map f).sum ≤ (l'.map g).sum := by
    intro l' h
    induction l' with
    | nil => simp
    | cons a l' ih =>
      simp only [List.map_cons, List.sum_cons]
      have := h a (by simp)
      have := ih (fun q hq => h q (by simp [hq]))
      omega
  induction l with
  | nil => cases hp
  | cons a l ih =>
    simp only [List.map_cons, List.sum_cons]
    rcases List.mem_cons.1 hp with rfl | hp'
    · have := hle' l (fun q hq => hle q (by simp [hq]))
      omega
    · have h1 := hle a (by simp)
      have h2 := ih hp' (fun q hq => hle q (by simp [hq]))
      omega

/-- Some member can make progress as long as one is not done. -/
theorem HInv.progress {num first : Nat} {members : List Nat} {s : HState}
    (h : HInv num first members s) (hnot : ∃ p ∈ members, s.todo p ≠ []) :
    ∃ p ∈ members, left (hstep members s p) p < left s p ∧ ∀ q ∈ members, left (hstep members s p) q ≤ left s q := by
  have hdone : ∀ (p : Nat) (t : World.State Nat Key Val) (rest : List Op) (r : Except Err (Option Val)) (o : Op),
      s.todo p = o :: rest → left (s.done p t rest r) p < left s p ∧
        ∀ q ∈ members, left (s.done p t rest r) q ≤ left s q := by
    intro p t rest r o ho
    have hsame : ((s.done p t rest r).todo p).length ≤ rest.length := by
      simp only [HState.done, upd_same]
      cases r <;> simp
    constructor
    · unfold left
      rw [done_entered, ho]
      simp only [List.length_cons]
      omega
    · intro q _
      unfold left
      rw [done_entered]
      by_cases e : q = p
      · subst e; rw [ho]; simp only [List.length_cons]; omega
      · simp only [HState.done, upd_ne _ _ _ _ e]; omega
  by_cases hex : ∃ p ∈ members, ∃ o rest, s.todo p = o :: rest ∧ o ≠ .barrier
  · rcases hex with ⟨p, hp, o, rest, ho, hne⟩
    refine ⟨p, hp, ?_⟩
    cases o with
    | barrier => exact absurd rfl hne
    | acquire kind k v => rw [hstep_acquire ho]; exact hdone p _ _ _ _ ho
    | get kind k => rw [hstep_get ho]; exact hdone p _ _ _ _ ho
  · have hbar : ∀ p ∈ members, s.todo p = [] ∨ ∃ rest, s.todo p = .barrier :: rest := by
      intro p hp
      cases ht : s.todo p with
      | nil => exact Or.inl rfl
      | cons o rest =>
        right
        by_cases hb : o = .barrier
        · exact ⟨rest, by rw [hb]⟩
        · exact absurd ⟨p, hp, o, rest, ht, hb⟩ hex
    by_cases hent : ∃ p ∈ members, s.entered p = false
    · rcases hent with ⟨p, hp, he⟩
      have hb : ∃ rest, s.todo p = .barrier :: rest := by
        rcases hbar p hp with h1 | h1
        · rcases h.entered p hp with h2 | h2
          · rw [he] at h2; cases h2
          · rw [h1] at h2; cases h2
        · exact h1
      rcases hb with ⟨rest, hb⟩
      refine ⟨p, hp, ?_⟩
      rw [hstep_barrier hb, he]
      simp only [Bool.false_eq_true, if_false]
      constructor
      · simp [left, upd_same, he]
      · intro q _
        by_cases e : q = p
        · subst e; simp [left, upd_same]
        · simp [left, upd_ne _ _ _ _ e]
    · have hall : ∀ p ∈ members, s.entered p = true := by
        intro p hp
        cases he : s.entered p with
        | true => rfl
        | false => exact absurd ⟨p, hp, he⟩ hent
      rcases hnot with ⟨p, hp, hne⟩
      rcases hbar p hp with h1 | ⟨rest, h1⟩
      · exact absurd h1 hne
      · refine ⟨p, hp, ?_⟩
        rw [hstep_barrier h1, hall p hp, if_pos rfl, if_pos (List.all_eq_true.2 hall)]
        constructor
        · simp [left, upd_same, h1]
        · intro q _
          by_cases e : q = p
          · subst e; simp [left, upd_same, h1]
          · simp [left, upd_ne _ _ _ _ e]

theorem HInv.finish {num first : Nat} {members : List Nat} (hf : first ∈ members) :
    ∀ (n : Nat) (s : HState), HInv num first members s → (members.map (left s)).sum ≤ n →
      ∃ more : List Nat, ∀ p ∈ members, (hrun members s more).todo p = [] := by
  intro n
  induction n with
  | zero =>
    intro s _ hn
    refine ⟨[], fun p hp => ?_⟩
    have h0 : left s p = 0 := by
      have : ∀ l : List Nat, p ∈ l → left s p ≤ (l.map (left s)).sum := by
        intro l hl
        induction l with
        | nil => cases hl
        | cons a l ih =>
          simp only [List.map_cons, List.sum_cons]
          rcases List.mem_cons.1 hl with rfl | hl'
          · omega
          · have := ih hl'; omega
      have := this members hp
      omega
    unfold left at h0
    show s.todo p = []
    exact List.eq_nil_of_length_eq_zero (by omega)
  | succ n ih =>
    intro s h hn
    by_cases hnot : ∃ p ∈ members, s.todo p ≠ []
    · rcases h.progress hnot with ⟨p, hp, hlt, hle⟩
      have hlt' := sum_lt hp hle hlt
      rcases ih (hstep members s p) (h.step hf p) (by omega) with ⟨more, hmore⟩
      exact ⟨p :: more, hmore⟩
    · refine ⟨[], fun p hp => ?_⟩
      cases ht : s.todo p with
      | nil => exact ht
      | cons o rest => exact absurd ⟨p, hp, by rw [ht]; simp⟩ hnot

end Machin.Group
