import Verif.PoolLife.Model

/-! # Lemmas about the life of a pool -/

namespace Machin.PoolLife

/-- Sum of a function over the workers. -/
def total (f : Worker → Nat) : List Worker → Nat
  | [] => 0
  | w :: ws => f w + total f ws

/-- Is the worker running task `t`? -/
def runs (t : Nat) : Worker → Nat
  | .busy t' _ => if t' = t then 1 else 0
  | _ => 0

/-- Is the worker running something? -/
def isBusy : Worker → Nat
  | .busy _ _ => 1
  | _ => 0

/-- Is the worker alive? -/
def alive : Worker → Nat
  | .exited => 0
  | _ => 1

/-- Is this item the task `t`? -/
def isTask (t : Nat) : Item → Bool
  | .task t' => t' == t
  | .stop => false

/-- How often task `t` is in the input queue. -/
def inTask (t : Nat) (q : List Item) : Nat := q.countP (isTask t)

/-- How many stop signals are in the input queue. -/
def stops (q : List Item) : Nat := q.count .stop

theorem total_append (f : Worker → Nat) (a b : List Worker) : total f (a ++ b) = total f a + total f b := by
  induction a with
  | nil => simp [total]
  | cons x xs ih => simp only [List.cons_append, total, ih]; omega

theorem total_set (f : Worker → Nat) {l : List Worker} {i : Nat} {w : Worker} (h : l[i]? = some w) (w' : Worker) :
    total f (l.set i w') + f w = total f l + f w' := by
  induction l generalizing i with
  | nil => cases h
  | cons x xs ih =>
    cases i with
    | zero =>
      simp only [List.getElem?_cons_zero, Option.some.injEq] at h
      subst h
      simp only [List.set_cons_zero, total]; omega
    | succ i =>
      simp only [List.getElem?_cons_succ] at h
      have := ih h
      simp only [List.set_cons_succ, total]; omega

theorem total_filter (f : Worker → Nat) (hf : f .exited = 0) (l : List Worker) :
    total f (l.filter (· ≠ .exited)) = total f l := by
  induction l with
  | nil => rfl
  | cons x xs ih =>
    rw [List.filter_cons]
    split
    · simp only [total, ih]
    · rename_i h
      have : x = .exited := by simpa using h
      subst this
      simp only [total, hf, ih]; omega

theorem total_replicate_zero (f : Worker → Nat) (n : Nat) (w : Worker) (h : f w = 0) : total f (List.replicate n w) = 0 := by
  induction n with
  | zero => rfl
  | succ n ih => simp only [List.replicate_succ, total, h, ih]

theorem total_eq_zero {f : Worker → Nat} {l : List Worker} (h : total f l = 0) : ∀ w ∈ l, f w = 0 := by
  induction l with
  | nil => intro w hw; cases hw
  | cons x xs ih =>
    simp only [total] at h
    intro w hw
    rcases List.mem_cons.1 hw with rfl | hw'
    · omega
    · exact ih (by omega) w hw'

theorem total_le_length {f : Worker → Nat} (hf : ∀ w, f w ≤ 1) (l : List Worker) : total f l ≤ l.length := by
  induction l with
  | nil => exact Nat.le_refl _
  | cons x xs ih => simp only [total, List.length_cons]; have := hf x; omega

theorem exists_of_total_pos {f : Worker → Nat} {l : List Worker} (h : 0 < total f l) : ∃ (i : Nat) (w : Worker), l[i]? = some w ∧ 0 < f w := by
  induction l with
  | nil => simp [total] at h
  | cons x xs ih =>
    by_cases hx : 0 < f x
    · exact ⟨0, x, rfl, hx⟩
    · simp only [total] at h
      rcases ih (by omega) with ⟨i, w, h1, h2⟩
      exact ⟨i + 1, w, by simpa using h1, h2⟩

theorem alive_le (w : Worker) : alive w ≤ 1 := by cases w <;> simp [alive]

/-- The worker handler has left its loop. -/
def Left (s : St) : Prop := (∃ k, s.wh = .sending k) ∨ s.wh = .done

/-- The invariant, as long as the workers have not been killed. -/
structure Inv (processes : Nat) (s : St) : Prop where
  distinct : s.submitted = List.range s.submitted.length
  cached : s.killed = false → ∀ t, s.cache.count t = inTask t s.inq + total (runs t) s.pool + s.outq.count t
  account : ∀ t, s.cache.count t + s.delivered.count t = s.submitted.count t
  executed : ∀ t, s.executed.count t = s.outq.count t + s.delivered.count t
  nostop : ¬ Left s → stops s.inq = 0
  left : Left s → s.mode ≠ .run ∧ (s.mode = .close → s.cache = [])
  rleft : s.rh = true → s.mode ≠ .run ∧ (s.mode = .close → s.cache = [])
  sending : ∀ k, s.wh = .sending k → total alive s.pool ≤ stops s.inq + k
  done : s.wh = .done → total alive s.pool ≤ stops s.inq
  head : s.wh = .head → s.pool.length = processes
  swept : s.wh = .swept → s.pool.length ≤ processes
  killed : s.killed = true → s.mode = .terminate ∧ s.wh = .done ∧ s.rh = true ∧ ∀ w ∈ s.pool, w = .exited

theorem Inv.init (processes : Nat) : Inv processes (init processes) := by
  refine ⟨rfl, ?_, fun t => rfl, fun t => rfl, fun _ => rfl, ?_, ?_, ?_, ?_, ?_, ?_, ?_⟩
  · intro _ t
    simp [PoolLife.init, inTask, total_replicate_zero (runs t) processes (.idle 0) rfl]
  · rintro (⟨k, h⟩ | h) <;> cases h
  · intro h; cases h
  · intro k h; cases h
  · intro h; cases h
  · intro _; simp [PoolLife.init]
  · intro h; cases h
  · intro h; cases h

theorem count_range_length {l : List Nat} (h : l = List.range l.length) : l.count l.length = 0 := by
  rw [List.count_eq_zero]
  intro hc
  rw [h] at hc
  simp at hc

theorem inTask_append (t : Nat) (a b : List Item) : inTask t (a ++ b) = inTask t a + inTask t b := List.countP_append

theorem stops_append (a b : List Item) : stops (a ++ b) = stops a + stops b := List.count_append

theorem not_goOn {s : St} (h : ¬ s.goOn = true) : s.mode ≠ .run ∧ (s.mode = .close → s.cache = []) := by
  unfold St.goOn at h
  constructor
  · intro hm; rw [hm] at h; exact h (by simp)
  · intro hm
    rw [hm] at h
    cases hc : s.cache with
    | nil => rfl
    | cons a l => rw [hc] at h; exact absurd (by simp) h

theorem goOn_mode {s : St} (h : s.goOn = true) : s.mode ≠ .terminate := by
  intro hm
  unfold St.goOn at h
  rw [hm] at h
  simp at h

theorem Inv.step {processes : Nat} (maxtasks : Option Nat) {s : St} (h : Inv processes s) (st : Step) :
    Inv processes (step processes maxtasks s st) := by
  cases st with
  | submit =>
    unfold PoolLife.step
    dsimp only
    split
    · rename_i hm
      have hnl : ¬ Left s := fun hl => (h.left hl).1 hm
      refine ⟨?_, ?_, ?_, h.executed, ?_, ?_, ?_, ?_, ?_, h.head, h.swept, ?_⟩
      · simp only [List.length_append, List.length_singleton, List.range_succ]
        rw [← h.distinct]
      · intro hk t
        have := h.cached hk t
        simp only [List.count_append, inTask_append, this]
        have : inTask t [.task s.submitted.length] = List.count t [s.submitted.length] := by
          simp [inTask, isTask, List.count_singleton]
        omega
      · intro t
        have := h.account t
        simp only [List.count_append]
        omega
      · intro _
        have := h.nostop hnl
        simp only [stops_append, this]
        rfl
      · intro hl; exact absurd hl hnl
      · intro hr; exact absurd hm (h.rleft hr).1
      · intro k hk; exact absurd (Or.inl ⟨k, hk⟩) hnl
      · intro hd; exact absurd (Or.inr hd) hnl
      · intro hk; exact absurd ((h.killed hk).1.symm.trans hm) (by decide)
    · exact h
  | close =>
    unfold PoolLife.step
    dsimp only
    split
    · rename_i hm
      have hnl : ¬ Left s := fun hl => (h.left hl).1 hm
      refine ⟨h.distinct, h.cached, h.account, h.executed, h.nostop, fun hl => absurd hl hnl, ?_, h.sending, h.done, h.head,
        h.swept, ?_⟩
      · intro hr; exact absurd hm (h.rleft hr).1
      · intro hk; exact absurd ((h.killed hk).1.symm.trans hm) (by decide)
    · exact h
  | terminate =>
    unfold PoolLife.step
    dsimp only
    refine ⟨h.distinct, h.cached, h.account, h.executed, h.nostop, ?_, ?_, h.sending, h.done, h.head, h.swept, ?_⟩
    · intro _; exact ⟨(fun e => nomatch e), (fun e => nomatch e)⟩
    · intro _; exact ⟨(fun e => nomatch e), (fun e => nomatch e)⟩
    · intro hk; exact ⟨rfl, (h.killed hk).2⟩
  | get i =>
    unfold PoolLife.step
    dsimp only
    split
    · rename_i c t rest hp hq
      have hnk : s.killed = true → False := by
        intro hk
        have := (h.killed hk).2.2.2 _ (List.mem_of_getElem? hp)
        cases this
      refine ⟨h.distinct, ?_, h.account, h.executed, ?_, h.left, h.rleft, ?_, ?_, ?_, ?_, fun hk => (hnk hk).elim⟩
      · intro hk t'
        have h1 := h.cached hk t'
        have h2 := total_set (runs t') hp (.busy t c)
        rw [hq] at h1
        have h3 : inTask t' (.task t :: rest) = inTask t' rest + (if t = t' then 1 else 0) := by
          simp [inTask, isTask, List.countP_cons]
        simp only [runs] at h2
        dsimp only
        omega
      · intro hl
        have h1 := h.nostop hl
        rw [hq] at h1
        have : stops (.task t :: rest) = stops rest := by simp [stops]
        exact this ▸ h1
      · intro k hk
        have h1 := h.sending k hk
        have h2 := total_set alive hp (.busy t c)
        rw [hq] at h1
        have : stops (.task t :: rest) = stops rest := by simp [stops]
        simp only [alive] at h2
        dsimp only
        omega
      · intro hd
        have h1 := h.done hd
        have h2 := total_set alive hp (.busy t c)
        rw [hq] at h1
        have : stops (.task t :: rest) = stops rest := by simp [stops]
        simp only [alive] at h2
        dsimp only
        omega
      · intro hh; simpa using h.head hh
      · intro hh; simpa using h.swept hh
    · rename_i c rest hp hq
      have hnk : s.killed = true → False := by
        intro hk
        have := (h.killed hk).2.2.2 _ (List.mem_of_getElem? hp)
        cases this
      have hst : stops (.stop :: rest) = stops rest + 1 := by simp [stops]
      have hleft : Left s := by
        by_cases hl : Left s
        · exact hl
        · have h1 := h.nostop hl
          rw [hq, hst] at h1
          cases h1
      refine ⟨h.distinct, ?_, h.account, h.executed, ?_, h.left, h.rleft, ?_, ?_, ?_, ?_, fun hk => (hnk hk).elim⟩
      · intro hk t'
        have h1 := h.cached hk t'
        have h2 := total_set (runs t') hp .exited
        rw [hq] at h1
        have h3 : inTask t' (.stop :: rest) = inTask t' rest := by simp [inTask, isTask]
        simp only [runs] at h2
        dsimp only
        omega
      · intro hl; exact absurd hleft hl
      · intro k hk
        have h1 := h.sending k hk
        have h2 := total_set alive hp .exited
        rw [hq] at h1
        simp only [alive] at h2
        dsimp only
        omega
      · intro hd
        have h1 := h.done hd
        have h2 := total_set alive hp .exited
        rw [hq] at h1
        simp only [alive] at h2
        dsimp only
        omega
      · intro hh; simpa using h.head hh
      · intro hh; simpa using h.swept hh
    · exact h
  | finish i =>
    unfold PoolLife.step
    dsimp only
    split
    · rename_i t c hp
      have hnk : s.killed = true → False := by
        intro hk
        have := (h.killed hk).2.2.2 _ (List.mem_of_getElem? hp)
        cases this
      have halive : alive (if exhausted maxtasks (c + 1) then .exited else .idle (c + 1)) ≤ 1 := alive_le _
      refine ⟨h.distinct, ?_, h.account, ?_, h.nostop, h.left, h.rleft, ?_, ?_, ?_, ?_, fun hk => (hnk hk).elim⟩
      · intro hk t'
        have h1 := h.cached hk t'
        have h2 := total_set (runs t') hp (if exhausted maxtasks (c + 1) then .exited else .idle (c + 1))
        have h3 : runs t' (if exhausted maxtasks (c + 1) then .exited else .idle (c + 1)) = 0 := by split <;> rfl
        rw [h3] at h2
        simp only [runs] at h2
        simp only [List.count_append, List.count_singleton]
        have h4 : (if (t == t') = true then 1 else 0) = (if t = t' then 1 else 0) := by simp
        omega
      · intro t'
        have := h.executed t'
        simp only [List.count_append]
        omega
      · intro k hk
        have h1 := h.sending k hk
        have h2 := total_set alive hp (if exhausted maxtasks (c + 1) then .exited else .idle (c + 1))
        simp only [alive] at h2 ⊢
        simp only [alive] at halive
        omega
      · intro hd
        have h1 := h.done hd
        have h2 := total_set alive hp (if exhausted maxtasks (c + 1) then .exited else .idle (c + 1))
        simp only [alive] at h2 ⊢
        simp only [alive] at halive
        omega
      · intro hh; simpa using h.head hh
      · intro hh; simpa using h.swept hh
    · exact h
  | sweep =>
    unfold PoolLife.step
    dsimp only
    split
    · rename_i hc
      have hnl : ¬ Left s := by rintro (⟨k, hk⟩ | hk) <;> rw [hc.1] at hk <;> cases hk
      refine ⟨h.distinct, ?_, h.account, h.executed, fun _ => h.nostop hnl, ?_, h.rleft, ?_, ?_, ?_, ?_, ?_⟩
      · intro hk t
        dsimp only
        rw [total_filter (runs t) rfl]
        exact h.cached hk t
      · rintro (⟨k, hk⟩ | hk) <;> cases hk
      · intro k hk; cases hk
      · intro hk; cases hk
      · intro hk; cases hk
      · intro _
        have := h.head hc.1
        dsimp only
        exact this ▸ List.length_filter_le _ _
      · intro hk
        have := (h.killed hk).2.1
        rw [hc.1] at this; cases this
    · exact h
  | repopulate =>
    unfold PoolLife.step
    dsimp only
    split
    · rename_i hc
      have hnl : ¬ Left s := by rintro (⟨k, hk⟩ | hk) <;> rw [hc] at hk <;> cases hk
      refine ⟨h.distinct, ?_, h.account, h.executed, fun _ => h.nostop hnl, ?_, h.rleft, ?_, ?_, ?_, ?_, ?_⟩
      · intro hk t
        dsimp only
        rw [total_append, total_replicate_zero (runs t) _ (.idle 0) rfl]
        exact h.cached hk t
      · rintro (⟨k, hk⟩ | hk) <;> cases hk
      · intro k hk; cases hk
      · intro hk; cases hk
      · intro _
        have := h.swept hc
        simp only [List.length_append, List.length_replicate]
        omega
      · intro hk; cases hk
      · intro hk
        have := (h.killed hk).2.1
        rw [hc] at this; cases this
    · exact h
  | leave =>
    unfold PoolLife.step
    dsimp only
    split
    · rename_i hc
      have hnl : ¬ Left s := by rintro (⟨k, hk⟩ | hk) <;> rw [hc.1] at hk <;> cases hk
      refine ⟨h.distinct, h.cached, h.account, h.executed, fun _ => h.nostop hnl, fun _ => not_goOn hc.2, h.rleft, ?_, ?_, ?_,
        ?_, ?_⟩
      · intro k hk
        cases hk
        have := total_le_length alive_le s.pool
        dsimp only
        omega
      · intro hk; cases hk
      · intro hk; cases hk
      · intro hk; cases hk
      · intro hk
        have := (h.killed hk).2.1
        rw [hc.1] at this; cases this
    · exact h
  | send =>
    unfold PoolLife.step
    dsimp only
    split
    · rename_i hw
      refine ⟨h.distinct, h.cached, h.account, h.executed, ?_, fun _ => h.left (Or.inl ⟨_, hw⟩), h.rleft, ?_, ?_, ?_, ?_, ?_⟩
      · intro hl; exact absurd (Or.inr rfl) hl
      · intro k hk; cases hk
      · intro _; exact h.sending 0 hw
      · intro hk; cases hk
      · intro hk; cases hk
      · intro hk
        have := (h.killed hk).2.1
        rw [hw] at this; cases this
    · rename_i k hw
      refine ⟨h.distinct, ?_, h.account, h.executed, ?_, fun _ => h.left (Or.inl ⟨_, hw⟩), h.rleft, ?_, ?_, ?_, ?_, ?_⟩
      · intro hk t
        have := h.cached hk t
        simp only [inTask_append]
        have h2 : inTask t [.stop] = 0 := rfl
        omega
      · intro hl; exact absurd (Or.inl ⟨k, rfl⟩) hl
      · intro k' hk'
        cases hk'
        have := h.sending _ hw
        simp only [stops_append]
        have h2 : stops [.stop] = 1 := rfl
        omega
      · intro hk; cases hk
      · intro hk; cases hk
      · intro hk; cases hk
      · intro hk
        have := (h.killed hk).2.1
        rw [hw] at this; cases this
    · exact h
  | deliver =>
    unfold PoolLife.step
    dsimp only
    split
    · exact h
    · rename_i hrh
      split
      · rename_i hgo
        split
        · exact h
        · rename_i t rest hq
          have hnk : s.killed = false := by
            cases hk : s.killed with
            | false => rfl
            | true => exact absurd (h.killed hk).2.2.1 hrh
          have hin : t ∈ s.cache := by
            have := h.cached hnk t
            rw [hq, List.count_cons_self] at this
            exact List.count_pos_iff.1 (by omega)
          rw [if_pos hin]
          refine ⟨h.distinct, ?_, ?_, ?_, h.nostop, ?_, ?_, h.sending, h.done, h.head, h.swept, ?_⟩
          · intro _ t'
            have h1 := h.cached hnk t'
            rw [hq, List.count_cons] at h1
            dsimp only
            by_cases e : t = t'
            · subst e
              simp only [beq_self_eq_true, if_true] at h1
              rw [List.count_erase_self]
              omega
            · have e' : (t == t') = false := by simpa using e
              rw [List.count_erase_of_ne (fun h => e h.symm)]
              rw [e'] at h1
              simpa using h1
          · intro t'
            have h1 := h.account t'
            simp only [List.count_append, List.count_singleton]
            by_cases e : t = t'
            · subst e
              have : 0 < s.cache.count t := List.count_pos_iff.2 hin
              rw [List.count_erase_self]
              simp only [beq_self_eq_true, if_true]
              omega
            · have e' : (t == t') = false := by simpa using e
              rw [List.count_erase_of_ne (fun h => e h.symm), e']
              simpa using h1
          · intro t'
            have h1 := h.executed t'
            rw [hq, List.count_cons] at h1
            simp only [List.count_append, List.count_singleton]
            omega
          · intro hl
            refine ⟨(h.left hl).1, fun hm => ?_⟩
            have := (h.left hl).2 hm
            rw [this] at hin; cases hin
          · intro hr; exact absurd hr hrh
          · intro hk; exact absurd (h.killed hk).2.2.1 hrh
      · exact h
  | rleave =>
    unfold PoolLife.step
    dsimp only
    split
    · rename_i hc
      refine ⟨h.distinct, h.cached, h.account, h.executed, h.nostop, h.left, fun _ => not_goOn hc.2, h.sending, h.done, h.head,
        h.swept, ?_⟩
      intro hk
      exact ⟨(h.killed hk).1, (h.killed hk).2.1, rfl, (h.killed hk).2.2.2⟩
    · exact h
  | kill =>
    unfold PoolLife.step
    dsimp only
    split
    · rename_i hc
      have h0 : total alive (s.pool.map fun _ => Worker.exited) = 0 := by
        induction s.pool with
        | nil => rfl
        | cons x xs ih => simp only [List.map_cons, total, ih]; rfl
      refine ⟨h.distinct, ?_, h.account, h.executed, h.nostop, h.left, h.rleft, ?_, ?_, ?_, ?_, ?_⟩
      · intro hk; cases hk
      · intro k hk; dsimp only; rw [h0]; exact Nat.zero_le _
      · intro hk; dsimp only; rw [h0]; exact Nat.zero_le _
      · intro hk; dsimp only at hk; rw [hc.2.1] at hk; cases hk
      · intro hk; dsimp only at hk; rw [hc.2.1] at hk; cases hk
      · intro _
        refine ⟨hc.1, hc.2.1, hc.2.2, ?_⟩
        intro w hw
        rcases List.mem_map.1 hw with ⟨_, _, e⟩
        exact e.symm
    · exact h

theorem Inv.run {processes : Nat} (maxtasks : Option Nat) {s : St} (h : Inv processes s) (steps : List Step) :
    Inv processes (run processes maxtasks s steps) := by
  induction steps generalizing s with
  | nil => exact h
  | cons st sts ih => exact ih (h.step maxtasks st)

theorem ceil_le {n d k : Nat} (hd : 0 < d) (hk : n ≤ d * k) : n / d + (if n % d = 0 then 0 else 1) ≤ k := by
  have h1 := Nat.div_add_mod n d
  have h3 : n / d ≤ k := Nat.div_le_of_le_mul hk
  split
  · omega
  · rename_i hne
    have : n / d ≠ k := by
      intro e
      rw [e] at h1
      omega
    omega

end Machin.PoolLife
