import Verif.Frames.Lemmas3

/-!
# Lemmas on all arguments of constructors, and on numbers of models
-/

namespace Machin.Frames

open Machin

variable {V : Type}

/-- A predicate on values that constants and derived values have. -/
structure Closed (P : Val V → Prop) : Prop where
  text : ∀ s, P (.text s)
  two : ∀ v, P (.firstTwo v)
  pri : ∀ a b c, P (.prioritized a b c)

theorem bindPos_closed (P : Val V → Prop) (ps : List Key) (as : List (Val V)) (kw : Key → Option (Val V)) (b : List (Key × Val V))
    (ha : ∀ v ∈ as, P v) (hk : ∀ k v, kw k = some v → P v) (h : bindPos ps as kw = .ok b) : ∀ x ∈ b, P x.2 := by
  induction ps generalizing as b with
  | nil =>
    have : b = [] := by cases as <;> (cases h; rfl)
    intro x hx; rw [this] at hx; cases hx
  | cons p ps ih =>
    cases as with
    | nil =>
      unfold bindPos at h
      cases hkp : kw p with
      | none => simp only [hkp] at h; cases h
      | some v =>
        simp only [hkp] at h
        cases hb : bindPos ps [] kw with
        | error e => simp only [hb] at h; cases h
        | ok b' =>
          simp only [hb] at h
          cases h
          intro x hx
          rcases List.mem_cons.mp hx with rfl | hx
          · exact hk p v hkp
          · exact ih [] b' ha hb x hx
    | cons a as =>
      unfold bindPos at h
      cases hkp : kw p with
      | some v => simp only [hkp] at h; cases h
      | none =>
        simp only [hkp] at h
        cases hb : bindPos ps as kw with
        | error e => simp only [hb] at h; cases h
        | ok b' =>
          simp only [hb] at h
          cases h
          intro x hx
          rcases List.mem_cons.mp hx with rfl | hx
          · exact ha a List.mem_cons_self
          · exact ih as b' (fun v hv => ha v (List.mem_cons_of_mem _ hv)) hb x hx

theorem valueOf_closed (P : Val V → Prop) (hP : Closed P) (b : List (Key × Val V)) (hb : ∀ x ∈ b, P x.2) (p : Key) : P (valueOf b p) := by
  unfold valueOf
  cases h : b.lookup p with
  | none => exact hP.text ""
  | some v =>
    have : ∃ k, (k, v) ∈ b := by
      clear hb
      induction b with
      | nil => cases h
      | cons y b ih =>
        obtain ⟨y1, y2⟩ := y
        rw [List.lookup_cons] at h
        cases hyp : (p == y1) with
        | true =>
          rw [hyp] at h
          simp only [Option.some.injEq] at h
          subst h
          exact ⟨y1, List.mem_cons_self⟩
        | false =>
          rw [hyp] at h
          obtain ⟨k, hk⟩ := ih h
          exact ⟨k, List.mem_cons_of_mem _ hk⟩
    obtain ⟨k, hk⟩ := this
    exact hb _ hk

theorem evalArg_closed (P : Val V → Prop) (hP : Closed P) (b : List (Key × Val V)) (hb : ∀ x ∈ b, P x.2) (a : Arg) : P (evalArg b a) := by
  cases a with
  | param p => exact valueOf_closed P hP b hb p
  | text s => exact hP.text s
  | firstTwo p => exact hP.two _
  | buffer => exact hP.pri _ _ _

theorem construct_closed (P : Val V → Prop) (hP : Closed P) (ls : List Level) (as : List (Val V)) (kw : Key → Option (Val V))
    (r : List (Key × Val V)) (ha : ∀ v ∈ as, P v) (hk : ∀ k v, kw k = some v → P v) (h : construct ls as kw = .ok r) : ∀ x ∈ r, P x.2 := by
  induction ls generalizing as kw r with
  | nil => cases h; intro x hx; cases hx
  | cons l ls ih =>
    unfold construct at h
    cases hb : bind l as kw with
    | error e => simp only [hb] at h; cases h
    | ok b =>
      simp only [hb] at h
      have hbP : ∀ x ∈ b, P x.2 := by
        unfold bind at hb
        cases hbp : bindPos l.pos as kw with
        | error e => simp only [hbp] at hb; cases hb
        | ok b' =>
          simp only [hbp] at hb
          cases hb
          intro x hx
          rcases List.mem_append.mp hx with hx | hx
          · exact bindPos_closed P _ _ _ _ ha hk hbp x hx
          · unfold bindKw at hx
            obtain ⟨y, _, rfl⟩ := List.mem_map.mp hx
            show P ((kw y.1).getD (.text y.2))
            cases hy : kw y.1 with
            | none => exact hP.text _
            | some v => exact hk _ _ hy
      cases hc : construct ls (l.supPos.map (evalArg b)) (fun k => (l.supKw.lookup k).map (evalArg b)) with
      | error e => simp only [hc] at h; cases h
      | ok r' =>
        simp only [hc] at h
        cases h
        intro x hx
        rcases List.mem_append.mp hx with hx | hx
        · exact hbP x (List.mem_filter.mp hx).1
        · refine ih _ _ r' ?_ ?_ hc x hx
          · intro v hv
            obtain ⟨a, _, rfl⟩ := List.mem_map.mp hv
            exact evalArg_closed P hP b hbP a
          · intro k v hv
            cases hs : l.supKw.lookup k with
            | none => rw [hs] at hv; cases hv
            | some a =>
              rw [hs] at hv
              rw [← Option.some.inj hv]
              exact evalArg_closed P hP b hbP a

theorem bind_ok {α β : Type} {x : Except Err α} {f : α → Except Err β} {y : β} (h : x.bind f = .ok y) : ∃ a, x = .ok a ∧ f a = .ok y := by
  cases x with
  | error e => cases h
  | ok a => exact ⟨a, rfl, h⟩

theorem models_mem (n : Nat) (m a k : V) (d : Bool) (v : Val V) (h : v ∈ models n m a k d) : ∃ i, v = .model i m a k true d := by
  obtain ⟨i, _, rfl⟩ := List.mem_map.mp h
  exact ⟨i, rfl⟩

/-- Models that are arguments of a constructor are moved. -/
def MovedVal : Val V → Prop
  | .model _ _ _ _ moved _ => moved = true
  | _ => True

theorem movedVal_closed : Closed (MovedVal (V := V)) := ⟨fun _ => trivial, fun _ => trivial, fun _ _ _ => trivial⟩

theorem replaced_moved (c : Key → Option V) (o : V) (a b d : V) (u : Bool) (s : V) (k : Key) (v : Val V)
    (h : replaced c o (some (.criterion a b d u)) s k = some v) : MovedVal v := by
  unfold replaced at h
  split at h
  · cases h; trivial
  · split at h
    · cases h; trivial
    · split at h
      · cases h; trivial
      · obtain ⟨w, _, rfl⟩ := Option.map_eq_some_iff.mp h; trivial

theorem without_moved (c : Key → Option V) (ks : List Key) (k : Key) (v : Val V) (h : without c ks k = some v) : MovedVal v := by
  unfold without at h
  split at h
  · cases h
  · obtain ⟨w, _, rfl⟩ := Option.map_eq_some_iff.mp h; trivial

theorem plain_moved (ls : List Level) (u : Bool) (n : Nat) (c : Key → Option V) (fr : Frame V) (h : initPlain ls u n c = .ok fr) :
    ∀ x ∈ fr.attrs, MovedVal x.2 := by
  unfold initPlain at h
  obtain ⟨m, _, h⟩ := bind_ok h
  obtain ⟨a, _, h⟩ := bind_ok h
  obtain ⟨k, _, h⟩ := bind_ok h
  obtain ⟨o, _, h⟩ := bind_ok h
  obtain ⟨cr, _, h⟩ := bind_ok h
  obtain ⟨ca, _, h⟩ := bind_ok h
  obtain ⟨ck, _, h⟩ := bind_ok h
  obtain ⟨s, _, h⟩ := bind_ok h
  obtain ⟨at', e, h⟩ := bind_ok h
  cases h
  refine construct_closed MovedVal movedVal_closed _ _ _ _ ?_ ?_ e
  · intro v hv
    obtain ⟨i, rfl⟩ := models_mem _ _ _ _ _ _ hv
    rfl
  · intro k v hv
    exact replaced_moved _ _ _ _ _ _ _ _ _ hv

theorem learners_moved (ls : List Level) (gn gm : Key) (u : Bool) (env : Env V) (n : Nat) (c : Key → Option V) (fr : Frame V)
    (h : initLearners ls gn gm u env n c = .ok fr) : ∀ x ∈ fr.attrs, MovedVal x.2 := by
  unfold initLearners at h
  obtain ⟨g, _, h⟩ := bind_ok h
  obtain ⟨gmv, _, h⟩ := bind_ok h
  obtain ⟨m, _, h⟩ := bind_ok h
  obtain ⟨a, _, h⟩ := bind_ok h
  obtain ⟨k, _, h⟩ := bind_ok h
  obtain ⟨lp, _, h⟩ := bind_ok h
  obtain ⟨o, _, h⟩ := bind_ok h
  obtain ⟨cr, _, h⟩ := bind_ok h
  obtain ⟨ca, _, h⟩ := bind_ok h
  obtain ⟨ck, _, h⟩ := bind_ok h
  obtain ⟨s, _, h⟩ := bind_ok h
  obtain ⟨sn, _, h⟩ := bind_ok h
  obtain ⟨sm, _, h⟩ := bind_ok h
  obtain ⟨at', e, h⟩ := bind_ok h
  cases h
  refine construct_closed MovedVal movedVal_closed _ _ _ _ ?_ ?_ e
  · intro v hv
    rcases List.mem_append.mp hv with hv | hv
    · obtain ⟨i, rfl⟩ := models_mem _ _ _ _ _ _ hv
      rfl
    · simp only [List.mem_cons, List.not_mem_nil, or_false] at hv
      rcases hv with rfl | rfl | rfl | rfl <;> trivial
  · intro k v hv
    split at hv
    · cases hv; trivial
    · exact without_moved _ _ _ _ hv

theorem a3c_moved (n : Nat) (c : Key → Option V) (fr : Frame V) (h : initA3c n c = .ok fr) : ∀ x ∈ fr.attrs, MovedVal x.2 := by
  unfold initA3c at h
  obtain ⟨m, _, h⟩ := bind_ok h
  obtain ⟨a, _, h⟩ := bind_ok h
  obtain ⟨k, _, h⟩ := bind_ok h
  obtain ⟨o, _, h⟩ := bind_ok h
  obtain ⟨cr, _, h⟩ := bind_ok h
  obtain ⟨ca, _, h⟩ := bind_ok h
  obtain ⟨ck, _, h⟩ := bind_ok h
  obtain ⟨s, _, h⟩ := bind_ok h
  obtain ⟨sn, _, h⟩ := bind_ok h
  obtain ⟨sm, _, h⟩ := bind_ok h
  obtain ⟨al, _, h⟩ := bind_ok h
  obtain ⟨cl, _, h⟩ := bind_ok h
  obtain ⟨sa, _, h⟩ := bind_ok h
  obtain ⟨sk, _, h⟩ := bind_ok h
  obtain ⟨at', e, h⟩ := bind_ok h
  cases h
  refine construct_closed MovedVal movedVal_closed _ _ _ _ ?_ ?_ e
  · intro v hv
    rcases List.mem_append.mp hv with hv | hv
    · obtain ⟨i, rfl⟩ := models_mem _ _ _ _ _ _ hv
      rfl
    · simp only [List.mem_cons, List.not_mem_nil, or_false] at hv
      rcases hv with rfl | rfl <;> trivial
  · intro k v hv
    exact without_moved _ _ _ _ hv

theorem ars_moved (n : Nat) (c : Key → Option V) (fr : Frame V) (h : initArs n c = .ok fr) : ∀ x ∈ fr.attrs, MovedVal x.2 := by
  unfold initArs at h
  obtain ⟨g, _, h⟩ := bind_ok h
  obtain ⟨gmv, _, h⟩ := bind_ok h
  obtain ⟨m, _, h⟩ := bind_ok h
  obtain ⟨a, _, h⟩ := bind_ok h
  obtain ⟨k, _, h⟩ := bind_ok h
  obtain ⟨o, _, h⟩ := bind_ok h
  obtain ⟨s, _, h⟩ := bind_ok h
  obtain ⟨sn, _, h⟩ := bind_ok h
  obtain ⟨sm, _, h⟩ := bind_ok h
  obtain ⟨at', e, h⟩ := bind_ok h
  cases h
  refine construct_closed MovedVal movedVal_closed _ _ _ _ ?_ ?_ e
  · intro v hv
    rcases List.mem_append.mp hv with hv | hv
    · obtain ⟨i, rfl⟩ := models_mem _ _ _ _ _ _ hv
      rfl
    · simp only [List.mem_cons, List.not_mem_nil, or_false] at hv
      rcases hv with rfl | rfl | rfl <;> trivial
  · intro k v hv
    split at hv
    · cases hv; trivial
    · exact without_moved _ _ _ _ hv

theorem init_moved (al : Algo) (h : al ≠ .gail) (env : Env V) (n : Nat) (c : Key → Option V) (fr : Frame V) (hi : init al env n c = .ok fr) :
    ∀ x ∈ fr.attrs, MovedVal x.2 := by
  cases al
  case gail => exact absurd rfl h
  case dqnApex => exact learners_moved _ _ _ _ _ _ _ _ hi
  case ddpgApex => exact learners_moved _ _ _ _ _ _ _ _ hi
  case impala => exact learners_moved _ _ _ _ _ _ _ _ hi
  case a3c => exact a3c_moved _ _ _ hi
  case ars => exact ars_moved _ _ _ hi
  all_goals exact plain_moved _ _ _ _ _ hi

theorem need_some (c : Key → Option V) (k : Key) (h : (c k).isSome) : ∃ v, need c k = .ok v := by
  obtain ⟨v, hv⟩ := Option.isSome_iff_exists.mp h
  exact ⟨v, by unfold need; rw [hv]⟩

theorem models_length (n : Nat) (m a k : V) (d : Bool) : (models n m a k d).length = n := by simp [models]

/-- Keyword style: the constructor is called with a list of `n` models. -/
theorem plain_mismatch (l : Level) (ls : List Level) (u : Bool) (n : Nat) (c : Key → Option V)
    (hk : ∀ k ∈ [Key.models, .modelArgs, .modelKwargs, .optimizer, .criterion, .criterionArgs, .criterionKwargs, .lrScheduler], (c k).isSome)
    (i : Nat) (p : Key) (hp : l.pos[i]? = some p)
    (h : (i < n ∧ p = .optimizer) ∨ (n ≤ i ∧ p ≠ .optimizer ∧ p ≠ .criterion ∧ p ≠ .lrScheduler ∧ c p = none)) :
    initPlain (l :: ls) u n c = .error .type := by
  simp only [List.mem_cons, List.not_mem_nil, or_false, forall_eq_or_imp, forall_eq] at hk
  obtain ⟨h1, h2, h3, h4, h5, h6, h7, h8⟩ := hk
  obtain ⟨m, e1⟩ := need_some c _ h1
  obtain ⟨a, e2⟩ := need_some c _ h2
  obtain ⟨k, e3⟩ := need_some c _ h3
  obtain ⟨o, e4⟩ := need_some c _ h4
  obtain ⟨cr, e5⟩ := need_some c _ h5
  obtain ⟨ca, e6⟩ := need_some c _ h6
  obtain ⟨ck, e7⟩ := need_some c _ h7
  obtain ⟨s, e8⟩ := need_some c _ h8
  have : construct (l :: ls) (models n m a k false) (replaced c o (some (.criterion cr ca ck u)) s) = .error .type := by
    refine construct_mismatch l ls _ _ i p hp ?_
    rw [models_length]
    rcases h with ⟨h, rfl⟩ | ⟨h, n1, n2, n3, h'⟩
    · exact Or.inl ⟨h, by simp [replaced]⟩
    · exact Or.inr ⟨h, by simp [replaced, n1, n2, n3, h']⟩
  unfold initPlain
  simp only [e1, e2, e3, e4, e5, e6, e7, e8, this, Bind.bind, Except.bind]

/-- The positional style: too few arguments. -/
theorem learners_few (l : Level) (ls : List Level) (gn gm : Key) (u : Bool) (env : Env V) (n : Nat) (c : Key → Option V)
    (hk : ∀ k ∈ [gn, gm, Key.models, .modelArgs, .modelKwargs, .learnerProcessNumber, .optimizer, .criterion, .criterionArgs, .criterionKwargs,
      .lrScheduler, .modelServerGroupName, .modelServerMembers], (c k).isSome)
    (i : Nat) (p : Key) (hp : l.pos[i]? = some p) (h : n + 4 ≤ i) (hn : p ≠ .lrScheduler) (hc : c p = none) :
    initLearners (l :: ls) gn gm u env n c = .error .type := by
  simp only [List.mem_cons, List.not_mem_nil, or_false, forall_eq_or_imp, forall_eq] at hk
  obtain ⟨f1, f2, h1, h2, h3, f3, h4, h5, h6, h7, h8, f4, f5⟩ := hk
  obtain ⟨m, e1⟩ := need_some c _ h1
  obtain ⟨a, e2⟩ := need_some c _ h2
  obtain ⟨k, e3⟩ := need_some c _ h3
  obtain ⟨o, e4⟩ := need_some c _ h4
  obtain ⟨cr, e5⟩ := need_some c _ h5
  obtain ⟨ca, e6⟩ := need_some c _ h6
  obtain ⟨ck, e7⟩ := need_some c _ h7
  obtain ⟨s, e8⟩ := need_some c _ h8
  obtain ⟨g, d1⟩ := need_some c _ f1
  obtain ⟨gmv, d2⟩ := need_some c _ f2
  obtain ⟨lp, d3⟩ := need_some c _ f3
  obtain ⟨sn, d4⟩ := need_some c _ f4
  obtain ⟨sm, d5⟩ := need_some c _ f5
  have : construct (l :: ls)
      (models n m a k (decide (env.rank < env.number lp)) ++ [.optimizer o, .criterion cr ca ck u, .group g gmv, .modelServers sn sm])
      (fun x => if x = .lrScheduler then some (.scheduler s) else without c [.optimizer, .criterion, .lrScheduler] x) = .error .type := by
    refine construct_mismatch l ls _ _ i p hp (Or.inr ⟨?_, ?_⟩)
    · rw [List.length_append, models_length]; exact h
    · simp only [if_neg hn, without, hc, Option.map_none, ite_self]
  unfold initLearners
  simp only [e1, e2, e3, e4, e5, e6, e7, e8, d1, d2, d3, d4, d5, Bind.bind, Except.bind]
  rw [this]

end Machin.Frames
