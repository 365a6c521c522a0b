import Mathlib.Tactic.Linarith
import Mathlib.Data.List.Induction
import Verif.Queue.Model

/-!
# Properties of the queues: C119, C120
-/

namespace Machin.Queue

/-! ## C119: `SimpleQueue` -/

/-- The specification: the messages that were put, in order. -/
def puts {α : Type} : List (Step α) → List α
  | [] => []
  | .put x :: l => x :: puts l
  | _ :: l => puts l

/-- The messages that were received, in order. -/
def SQ.received {α : Type} (s : SQ α) : List α := s.results.filterMap (·.2)

private theorem puts_append {α : Type} (l₁ l₂ : List (Step α)) : puts (l₁ ++ l₂) = puts l₁ ++ puts l₂ := by
  induction l₁ with
  | nil => rfl
  | cons a l ih => cases a <;> simp [puts, ih]

private theorem run_append {α : Type} (s : SQ α) (l₁ l₂ : List (Step α)) : s.run (l₁ ++ l₂) = (s.run l₁).bind (fun s => s.run l₂) := by
  induction l₁ generalizing s with
  | nil => rfl
  | cons a l ih =>
    rw [List.cons_append, SQ.run, SQ.run]
    cases s.step a with
    | none => rfl
    | some s' => exact ih s'

private theorem run_ind {α : Type} (s : SQ α) (P : List (Step α) → SQ α → Prop) (h0 : P [] s)
    (h1 : ∀ l s₁ a s₂, P l s₁ → s₁.step a = some s₂ → P (l ++ [a]) s₂) : ∀ l s', s.run l = some s' → P l s' := by
  intro l
  induction l using List.reverseRecOn with
  | nil => intro s' h; simp [SQ.run] at h; subst h; exact h0
  | append_singleton l a ih =>
    intro s' h
    rw [run_append] at h
    cases hr : s.run l with
    | none => simp [hr] at h
    | some s₁ =>
      rw [hr] at h
      simp only [Option.bind_some, SQ.run] at h
      cases hs : s₁.step a with
      | none => simp [hs] at h
      | some s₂ =>
        simp [hs] at h
        subst h
        exact h1 l s₁ a _ (ih s₁ hr) hs

/-- What is known about every reachable state. -/
private structure Inv {α : Type} (l : List (Step α)) (s : SQ α) : Prop where
  order : s.received ++ s.pipe = puts l
  excl : ∀ i t c, s.readers i = .poll t c → s.holder = some i
  held : ∀ i, s.holder = some i → ∃ t c, s.readers i = .poll t c

private theorem inv_step {α : Type} (l : List (Step α)) (s₁ : SQ α) (a : Step α) (s₂ : SQ α) (h : Inv l s₁) (hs : s₁.step a = some s₂) :
    Inv (l ++ [a]) s₂ := by
  have hp := puts_append l [a]
  cases a with
  | put x =>
    simp only [SQ.step, Option.some.injEq] at hs
    subst hs
    refine ⟨?_, h.excl, h.held⟩
    rw [hp, ← h.order]
    simp [SQ.received, puts]
  | tick =>
    simp only [SQ.step, Option.some.injEq] at hs
    subst hs
    refine ⟨?_, h.excl, h.held⟩
    rw [hp, ← h.order]
    simp [SQ.received, puts]
  | call i t =>
    simp only [SQ.step] at hs
    split at hs
    · rename_i hi
      simp only [Option.some.injEq] at hs
      subst hs
      refine ⟨?_, ?_, ?_⟩
      · rw [hp, ← h.order]; simp [SQ.received, puts, SQ.setReader]
      · intro j t' c hj
        by_cases hji : j = i
        · simp [SQ.setReader, hji] at hj
        · simp [SQ.setReader, hji] at hj; exact h.excl j t' c hj
      · intro j hj
        obtain ⟨t', c, hj'⟩ := h.held j hj
        have hji : j ≠ i := by rintro rfl; rw [hi] at hj'; simp at hj'
        exact ⟨t', c, by simp [SQ.setReader, hji, hj']⟩
    · simp at hs
  | acquire i =>
    simp only [SQ.step] at hs
    split at hs
    · rename_i t c hi hn
      simp only [Option.some.injEq] at hs
      subst hs
      refine ⟨?_, ?_, ?_⟩
      · rw [hp, ← h.order]; simp [SQ.received, puts, SQ.setReader]
      · intro j t' c' hj
        by_cases hji : j = i
        · simp [hji]
        · simp [SQ.setReader, hji] at hj
          have := h.excl j t' c' hj
          rw [hn] at this; simp at this
      · intro j hj
        simp only [Option.some.injEq] at hj
        subst hj
        exact ⟨t, s₁.now, by simp [SQ.setReader]⟩
    · simp at hs
  | recv i =>
    simp only [SQ.step] at hs
    split at hs
    · rename_i t c x rest hi hpipe
      simp only [Option.some.injEq] at hs
      subst hs
      have hh := h.excl i _ _ hi
      refine ⟨?_, ?_, ?_⟩
      · rw [hp, ← h.order, hpipe]; simp [SQ.received, puts]
      · intro j t' c' hj
        by_cases hji : j = i
        · simp [SQ.setReader, hji] at hj
        · simp [SQ.setReader, hji] at hj
          have := h.excl j t' c' hj
          rw [hh] at this
          exact absurd (Option.some.inj this).symm hji
      · intro j hj; simp at hj
    · simp at hs
  | expire i =>
    simp only [SQ.step] at hs
    split at hs
    · rename_i t c hi hpipe
      split at hs
      · simp only [Option.some.injEq] at hs
        subst hs
        have hh := h.excl i _ _ hi
        refine ⟨?_, ?_, ?_⟩
        · rw [hp, ← h.order]; simp [SQ.received, puts, hpipe, SQ.setReader]
        · intro j t' c' hj
          by_cases hji : j = i
          · simp [SQ.setReader, hji] at hj
          · simp [SQ.setReader, hji] at hj
            have := h.excl j t' c' hj
            rw [hh] at this
            exact absurd (Option.some.inj this).symm hji
        · intro j hj; simp at hj
      · simp at hs
    · simp at hs

private theorem inv_run {α : Type} (l : List (Step α)) (s : SQ α) (h : (SQ.fresh α).run l = some s) : Inv l s :=
  run_ind (SQ.fresh α) Inv ⟨rfl, by simp [SQ.fresh], by simp [SQ.fresh]⟩ inv_step l s h

/-- C119, full statement: with any number of readers and writers every message is received once and in order, and a reader that called
`get(timeout)` can return, with a message or `TimeoutError`, once the timeout has passed. -/
def C119_full : Prop :=
  ∀ (α : Type) (l : List (Step α)) (s : SQ α), (SQ.fresh α).run l = some s →
    s.received ++ s.pipe = puts l ∧
    ∀ i t since, (s.readers i = .lock (some t) since ∨ s.readers i = .poll (some t) since) → since + t ≤ s.now →
      (s.step (.recv i)).isSome ∨ (s.step (.expire i)).isSome ∨ ∃ s', s.step (.acquire i) = some s'

/-- The timeout does not cover the wait for the lock: while one reader waits without timeout on an empty queue, a second reader with any timeout
waits as long as no message arrives, however much time passes and whatever the readers try. -/
theorem C119_violated_lock {α : Type} (t : Nat) (l : List (Step α)) (s : SQ α) (hput : ∀ x, Step.put x ∉ l)
    (h : (SQ.fresh α).run ([.call 0 none, .acquire 0, .call 1 (some t)] ++ l) = some s) :
    s.readers 1 = .lock (some t) 0 ∧ s.results = [] := by
  rw [run_append] at h
  have e : (SQ.fresh α).run [.call 0 none, .acquire 0, .call 1 (some t)] =
      some ⟨[], some 0, fun j => if j = 1 then .lock (some t) 0 else if j = 0 then .poll none 0 else if j = 0 then .lock none 0 else .idle, 0, []⟩ := by
    rfl
  rw [e, Option.bind_some] at h
  have key := run_ind _ (fun l s => (∀ x, Step.put x ∉ l) → s.pipe = [] ∧ s.holder = some 0 ∧ s.readers 0 = .poll none 0 ∧
      s.readers 1 = .lock (some t) 0 ∧ s.results = [] ∧ ∀ j, j ≠ 0 → ∀ t c, s.readers j ≠ .poll t c) ?_ ?_ l s h
  · obtain ⟨_, _, _, h4, h5, _⟩ := key hput
    exact ⟨h4, h5⟩
  · intro _
    refine ⟨rfl, rfl, rfl, rfl, rfl, ?_⟩
    intro j hj t' c
    by_cases h1 : j = 1
    · simp [h1]
    · simp [h1, hj]
  · intro l s₁ a s₂ ih hs hl
    obtain ⟨h1, h2, h3, h4, h5, h6⟩ := ih (fun x hx => hl x (by simp [hx]))
    cases a with
    | put x => exact absurd (by simp) (hl x)
    | tick =>
      simp only [SQ.step, Option.some.injEq] at hs
      subst hs
      exact ⟨h1, h2, h3, h4, h5, h6⟩
    | call i t' =>
      simp only [SQ.step] at hs
      split at hs
      · rename_i hi
        simp only [Option.some.injEq] at hs
        subst hs
        have i0 : 0 ≠ i := by rintro rfl; rw [h3] at hi; simp at hi
        have i1 : 1 ≠ i := by rintro rfl; rw [h4] at hi; simp at hi
        refine ⟨h1, h2, by simp [SQ.setReader, i0, h3], by simp [SQ.setReader, i1, h4], h5, ?_⟩
        intro j hj t'' c
        by_cases hji : j = i
        · simp [SQ.setReader, hji]
        · simpa [SQ.setReader, hji] using h6 j hj t'' c
      · simp at hs
    | acquire i =>
      simp only [SQ.step] at hs
      rw [h2] at hs
      cases hr : s₁.readers i <;> simp [hr] at hs
    | recv i =>
      simp only [SQ.step] at hs
      rw [h1] at hs
      cases hr : s₁.readers i <;> simp [hr] at hs
    | expire i =>
      simp only [SQ.step] at hs
      by_cases hi : i = 0
      · subst hi
        rw [h3] at hs
        simp at hs
      · cases hr : s₁.readers i with
        | idle => simp [hr] at hs
        | lock _ _ => simp [hr] at hs
        | poll t' c => exact absurd hr (h6 i hi t' c)

example : ∃ s, (SQ.fresh Nat).run ([.call 0 none, .acquire 0, .call 1 (some 0)] ++ List.replicate 5 .tick) = some s ∧ s.now = 5 ∧
    s.readers 1 = .lock (some 0) 0 := ⟨_, rfl, rfl, rfl⟩

/-- C119 is violated. -/
theorem C119_violated : ¬ C119_full := by
  intro h
  have h1 := (h Nat [.call 0 none, .acquire 0, .call 1 (some 0)] _ rfl).2 1 0 0 (Or.inl rfl) (by decide)
  rcases h1 with h1 | h1 | ⟨s', h1⟩
  · exact absurd h1 (by decide)
  · exact absurd h1 (by decide)
  · have e : (SQ.step (α := Nat) ⟨[], some 0, fun j => if j = 1 then Reader.lock (some 0) 0 else if j = 0 then .poll none 0 else
      if j = 0 then .lock none 0 else .idle, 0, []⟩ (.acquire 1)) = none := rfl
    exact absurd (h1.symm.trans e) (by simp)

/-- The clock counts the ticks. -/
theorem C119_clock_partial {α : Type} (l : List (Step α)) (s : SQ α) (h : (SQ.fresh α).run l = some s) :
    s.now = l.countP (fun a => match a with | .tick => true | _ => false) ∧ (s.step .tick).map SQ.now = some (s.now + 1) := by
  refine ⟨?_, rfl⟩
  suffices ∀ (s₀ : SQ α), s₀.run l = some s → s.now = s₀.now + l.countP (fun a => match a with | .tick => true | _ => false) by
    simpa [SQ.fresh] using this _ h
  clear h
  induction l with
  | nil => intro s₀ h; cases h; rfl
  | cons a l ih =>
    intro s₀ h
    rw [SQ.run] at h
    cases hs : s₀.step a with
    | none => rw [hs] at h; cases h
    | some s₁ =>
      rw [hs] at h
      have h2 := ih s₁ h
      rw [h2, List.countP_cons]
      cases a with
      | tick =>
        simp only [SQ.step, Option.some.injEq] at hs
        subst hs
        simp; omega
      | put x =>
        simp only [SQ.step, Option.some.injEq] at hs
        subst hs
        simp
      | call i t =>
        simp only [SQ.step] at hs
        split at hs <;> cases hs
        simp [SQ.setReader]
      | acquire i =>
        simp only [SQ.step] at hs
        split at hs <;> cases hs
        simp [SQ.setReader]
      | recv i =>
        simp only [SQ.step] at hs
        split at hs <;> cases hs
        simp [SQ.setReader]
      | expire i =>
        simp only [SQ.step] at hs
        split at hs
        · split at hs <;> cases hs
          simp [SQ.setReader]
        · cases hs

/-- C119, what holds: in every interleaving the messages are received once each and in order of their puts; only the holder of the lock is inside
`poll`, so that at most one reader is; and a reader inside `poll` can return once its timeout has passed, or as soon as there is a message. -/
theorem C119_order_partial {α : Type} (l : List (Step α)) (s : SQ α) (h : (SQ.fresh α).run l = some s) :
    s.received ++ s.pipe = puts l ∧
    (∀ i j t c t' c', s.readers i = .poll t c → s.readers j = .poll t' c' → i = j) ∧
    (∀ i t since, s.readers i = .poll (some t) since → since + t ≤ s.now → (s.step (.recv i)).isSome ∨ (s.step (.expire i)).isSome) ∧
    (∀ i t since, s.readers i = .poll t since → s.pipe ≠ [] → (s.step (.recv i)).isSome) ∧
    (∀ i t since, s.readers i = .lock t since → s.holder = none → (s.step (.acquire i)).isSome) := by
  have hi := inv_run l s h
  refine ⟨hi.order, ?_, ?_, ?_, ?_⟩
  · intro i j t c t' c' h1 h2
    have e1 := hi.excl i t c h1
    have e2 := hi.excl j t' c' h2
    rw [e1] at e2
    exact Option.some.inj e2
  · intro i t since h1 h2
    cases hp : s.pipe with
    | nil => right; simp [SQ.step, h1, hp, h2]
    | cons x rest => left; simp [SQ.step, h1, hp]
  · intro i t since h1 h2
    obtain ⟨x, rest, hp⟩ := List.exists_cons_of_ne_nil h2
    simp [SQ.step, h1, hp]
  · intro i t since h1 h2
    simp [SQ.step, h1, h2]

example : ∃ s, (SQ.fresh Nat).run [.put 1, .put 2, .call 0 none, .call 1 none, .acquire 1, .recv 1, .acquire 0, .recv 0] = some s ∧
    s.results = [(1, some 1), (0, some 2)] := ⟨_, rfl, rfl⟩

/-! ## C120: `MultiP2PQueue` -/

/-- The specification: what was put into sub-queue `i`, in order. -/
def putsAt {α : Type} (i : Nat) : List (MStep α) → List α
  | [] => []
  | .put j x :: l => if j = i then x :: putsAt i l else putsAt i l
  | .poll :: l => putsAt i l

/-- What was returned from sub-queue `i`, in order. -/
def MQ.gotFrom {α : Type} (s : MQ α) (i : Nat) : List α := (s.got.filter (fun q => q.1 = i)).map (·.2)

private theorem mrun_gen {α : Type} (i : Nat) (l : List (MStep α)) : ∀ (s : MQ α), i < s.queues.length →
    (s.run l).gotFrom i ++ (s.run l).queues.getD i [] = s.gotFrom i ++ s.queues.getD i [] ++ putsAt i l := by
  induction l with
  | nil => intro s _; simp [MQ.run, putsAt]
  | cons a l ih =>
    intro s hi
    cases a with
    | put j x =>
      rw [MQ.run, ih _ (by simpa [MQ.putAt] using hi)]
      by_cases hj : j = i
      · subst hj
        simp [MQ.putAt, MQ.gotFrom, putsAt, List.getD_eq_getElem?_getD, List.getElem?_modify, hi]
      · simp [MQ.putAt, MQ.gotFrom, putsAt, List.getD_eq_getElem?_getD, List.getElem?_modify, hj]
    | poll =>
      have hlen : s.poll.queues.length = s.queues.length := by
        unfold MQ.poll; split <;> simp
      rw [MQ.run, ih _ (by rw [hlen]; exact hi)]
      have : s.poll.gotFrom i ++ s.poll.queues.getD i [] = s.gotFrom i ++ s.queues.getD i [] := by
        unfold MQ.poll
        split
        · rename_i x rest hq
          by_cases hp : s.pos = i
          · subst hp
            have hq' := hq
            rw [List.getElem?_eq_getElem hi] at hq'
            simp [MQ.gotFrom, List.getD_eq_getElem?_getD, Option.some.inj hq', hi]
          · simp [MQ.gotFrom, List.getD_eq_getElem?_getD, List.getElem?_set, hp, List.filter_append]
        · rfl
      rw [this, putsAt]

/-- C120, full statement: nothing is lost, repeated or reordered within a sub-queue; and a message is returned after at most as many others as
were waiting when it was put. -/
def C120_full : Prop :=
  ∀ (α : Type) (n : Nat) (l₁ l₂ : List (MStep α)) (i : Nat) (x : α), i < n →
    (∀ j < n, (((MQ.fresh α n).run l₁).gotFrom j ++ ((MQ.fresh α n).run l₁).queues.getD j [] = putsAt j l₁)) ∧
    (((MQ.fresh α n).run l₁).queues.flatten.length + ((MQ.fresh α n).run l₁).got.length
        < ((MQ.fresh α n).run (l₁ ++ .put i x :: l₂)).got.length →
      (i, x) ∈ ((MQ.fresh α n).run (l₁ ++ .put i x :: l₂)).got)

/-- `quick_get` begins with the first sub-queue every time: while the first worker keeps sending, a message of any other worker waits for as many
messages as one likes. -/
theorem C120_violated_starved {α : Type} (x y : α) (n i k : Nat) (hi : 0 < i) (hn : i < n) :
    ((MQ.fresh α n).run (.put i x :: (List.replicate k [MStep.put 0 y, .poll]).flatten)).got = List.replicate k (0, y) := by
  rw [MQ.run]
  have key : ∀ (k : Nat) (s : MQ α), s.pos = 0 → s.queues[0]? = some [] →
      (s.run (List.replicate k [MStep.put 0 y, .poll]).flatten).got = s.got ++ List.replicate k (0, y) := by
    intro k
    induction k with
    | zero => intro s _ _; simp [MQ.run]
    | succ k ih =>
      intro s hp hq
      rw [List.replicate_succ, List.flatten_cons]
      simp only [List.cons_append, List.nil_append, MQ.run]
      have e : ((s.putAt 0 y).queues)[(s.putAt 0 y).pos]? = some [y] := by
        simp [MQ.putAt, hp, List.getElem?_modify, hq]
      have e2 : (s.putAt 0 y).poll = ⟨(s.putAt 0 y).counter, (s.putAt 0 y).queues.set (s.putAt 0 y).pos [], 0,
          (s.putAt 0 y).got ++ [((s.putAt 0 y).pos, y)]⟩ := by
        unfold MQ.poll; rw [e]
      rw [e2, ih _ rfl]
      · simp [MQ.putAt, hp, List.replicate_succ]
      · have hl : 0 < s.queues.length := by
          by_contra hc
          rw [List.getElem?_eq_none (by omega)] at hq
          simp at hq
        simp [MQ.putAt, hp, List.getElem?_set, hl]
  have := key k ((MQ.fresh α n).putAt i x) rfl (by
    have : 0 < n := by omega
    have hi' : i ≠ 0 := by omega
    simp [MQ.fresh, MQ.putAt, List.getElem?_modify, List.getElem?_replicate, this, hi'])
  rw [this]
  simp [MQ.fresh, MQ.putAt]

/-- C120 is violated. -/
theorem C120_violated : ¬ C120_full := by
  intro h
  have := (h Nat 2 [] [.put 0 7, .poll] 1 5 (by norm_num)).2 (by decide)
  revert this
  decide

/-- C120, what holds: in every interleaving nothing is lost, repeated or reordered within a sub-queue; `quick_put` gives the messages to the
sub-queues in turn. -/
theorem C120_order_partial {α : Type} (n : Nat) (l : List (MStep α)) (i : Nat) (hi : i < n) :
    ((MQ.fresh α n).run l).gotFrom i ++ ((MQ.fresh α n).run l).queues.getD i [] = putsAt i l := by
  rw [mrun_gen i l _ (by simpa [MQ.fresh] using hi)]
  have : ((MQ.fresh α n).queues.getD i []) = [] := by
    simp [MQ.fresh, List.getD_eq_getElem?_getD, List.getElem?_replicate, hi]
  rw [this]
  simp [MQ.fresh, MQ.gotFrom]

example : ((MQ.fresh Nat 2).run [.put 0 1, .put 1 2, .put 1 3, .poll, .poll, .poll, .put 0 4, .poll]).got = [(0, 1), (1, 2), (0, 4)] := by decide

/-- A message of sub-queue `i` at whose front it is, is returned by the `(i + 1)`-th look if the sub-queues before it are and stay empty. -/
theorem C120_served_partial {α : Type} (s : MQ α) (i : Nat) (x : α) (rest : List α) (hp : s.pos = 0) (hq : s.queues[i]? = some (x :: rest))
    (he : ∀ j < i, s.queues[j]? = some []) : (s.run (List.replicate (i + 1) .poll)).got = s.got ++ [(i, x)] := by
  have hlen : i < s.queues.length := (List.getElem?_eq_some_iff.1 hq).1
  have key : ∀ (k : Nat), k ≤ i → s.run (List.replicate k .poll) = { s with pos := k } := by
    intro k
    induction k with
    | zero => intro _; cases s; simp only at hp; subst hp; rfl
    | succ k ih =>
      intro hk
      have hr : ∀ (l₁ l₂ : List (MStep α)) (s : MQ α), s.run (l₁ ++ l₂) = (s.run l₁).run l₂ := by
        intro l₁ l₂
        induction l₁ with
        | nil => intro s; rfl
        | cons a l ih => intro s; cases a <;> exact ih _
      rw [List.replicate_succ', hr, ih (by omega)]
      simp only [MQ.run, MQ.poll]
      rw [he k (by omega)]
      simp only
      rw [if_pos (by omega)]
  have hr : ∀ (l₁ l₂ : List (MStep α)) (s : MQ α), s.run (l₁ ++ l₂) = (s.run l₁).run l₂ := by
    intro l₁ l₂
    induction l₁ with
    | nil => intro s; rfl
    | cons a l ih => intro s; cases a <;> exact ih _
  rw [List.replicate_succ', hr, key i le_rfl]
  simp only [MQ.run, MQ.poll]
  rw [hq]

private theorem quickPuts_gen {α : Type} (n : Nat) (hn : 0 < n) (xs : List α) : ∀ (s : MQ α), s.queues.length = n → s.counter < n →
    ∃ s', s.quickPuts xs = .ok s' ∧ s'.queues.length = n ∧
      ∀ i < n, s'.queues.getD i [] = s.queues.getD i [] ++ ((xs.zipIdx s.counter).filter (fun q => q.2 % n = i)).map (·.1) := by
  induction xs with
  | nil => intro s h1 _; exact ⟨s, rfl, h1, by simp⟩
  | cons x xs ih =>
    intro s h1 h2
    have e : s.quickPut x = .ok { (s.putAt s.counter x) with counter := (s.counter + 1) % n } := by
      simp [MQ.quickPut, h1, h2]
    obtain ⟨s', h3, h4, h5⟩ := ih { (s.putAt s.counter x) with counter := (s.counter + 1) % n } (by simp [MQ.putAt, h1]) (Nat.mod_lt _ hn)
    refine ⟨s', by rw [MQ.quickPuts, e]; exact h3, h4, ?_⟩
    intro i hi
    rw [h5 i hi]
    have hz : ∀ (a b : Nat), a % n = b % n → ((xs.zipIdx a).filter (fun q => q.2 % n = i)).map (·.1)
        = ((xs.zipIdx b).filter (fun q => q.2 % n = i)).map (·.1) := by
      clear ih h3 h4 h5 e
      induction xs with
      | nil => intro a b _; rfl
      | cons y ys ihh =>
        intro a b hab
        have := ihh (a + 1) (b + 1) (by rw [Nat.add_mod, hab, ← Nat.add_mod])
        simp only [List.zipIdx_cons, List.filter_cons, hab]
        split <;> simp [this]
    rw [hz ((s.counter + 1) % n) (s.counter + 1) (Nat.mod_mod _ _)]
    simp only [List.zipIdx_cons, List.filter_cons, Nat.mod_eq_of_lt h2]
    by_cases hc : s.counter = i
    · subst hc
      simp [MQ.putAt, List.getD_eq_getElem?_getD, List.getElem?_modify, h1, hi]
    · simp [MQ.putAt, List.getD_eq_getElem?_getD, List.getElem?_modify, hc]

/-- `quick_put` sends message number `k` to sub-queue `k` modulo their number. -/
theorem C120_turns_partial {α : Type} (n : Nat) (hn : 0 < n) (xs : List α) :
    ∃ s, (MQ.fresh α n).quickPuts xs = .ok s ∧
      ∀ i < n, s.queues.getD i [] = ((xs.zipIdx).filter (fun q => q.2 % n = i)).map (·.1) := by
  obtain ⟨s, h1, _, h3⟩ := quickPuts_gen n hn xs (MQ.fresh α n) (by simp [MQ.fresh]) (by simpa [MQ.fresh] using hn)
  refine ⟨s, h1, ?_⟩
  intro i hi
  rw [h3 i hi]
  have : ((MQ.fresh α n).queues.getD i []) = [] := by
    simp [MQ.fresh, List.getD_eq_getElem?_getD, List.getElem?_replicate, hi]
  rw [this]
  rfl

example : ∃ s, (MQ.fresh Nat 2).quickPuts [10, 11, 12] = .ok s ∧ s.queues = [[10, 12], [11]] := ⟨_, rfl, rfl⟩

end Machin.Queue
