import Verif.Effects.Spec

/-! Lemmas about the effects of `update`. -/

namespace Machin.Effects

/-- The effect sets the mode of the network. -/
def touches (n : Net) : Eff → Bool
  | .train n' => n' = n
  | .eval n' => n' = n
  | _ => false

theorem mode_append (n : Net) (a b : List Eff) : ∀ m : Bool, mode n m (a ++ b) = mode n (mode n m a) b := by
  induction a with
  | nil => intro m; rfl
  | cons e a ih => intro m; cases e <;> simp [mode, ih]

theorem mode_not_touch (n : Net) (e : Eff) (h : touches n e = false) (m : Bool) (l : List Eff) :
    mode n m (e :: l) = mode n m l := by
  cases e <;> simp_all [mode, touches]

theorem mode_one_not (n : Net) (e : Eff) (h : touches n e = false) (m : Bool) : mode n m [e] = m := by
  rw [mode_not_touch n e h]; rfl

theorem mode_one_touch (n : Net) (e : Eff) (h : touches n e = true) (m m' : Bool) : mode n m [e] = mode n m' [e] := by
  cases e <;> simp_all [mode, touches]

theorem mode_quiet (n : Net) (l : List Eff) (h : ∀ e ∈ l, touches n e = false) (m : Bool) : mode n m l = m := by
  induction l with
  | nil => rfl
  | cons e l ih => rw [mode_not_touch n e (h e (by simp)), ih fun e he => h e (by simp [he])]

theorem mem_block (b : Bool) (l : List Eff) (e : Eff) (h : e ∈ block b l) : e ∈ l ∧ b = true := by
  cases b <;> simp_all [block]

theorem mem_loop (k : Nat) (l : List Eff) (e : Eff) (h : e ∈ loop k l) : e ∈ l := by
  simp only [loop, List.mem_flatten, List.mem_replicate] at h
  obtain ⟨l', ⟨-, rfl⟩, h⟩ := h; exact h

theorem mode_block (n : Net) (b : Bool) (l : List Eff) (h : ∀ e ∈ l, touches n e = false) (m : Bool) :
    mode n m (block b l) = m := mode_quiet n _ (fun e he => h e (mem_block b l e he).1) m

theorem mode_loop (n : Net) (k : Nat) (l : List Eff) (h : ∀ e ∈ l, touches n e = false) (m : Bool) :
    mode n m (loop k l) = m := mode_quiet n _ (fun e he => h e (mem_loop k l e he)) m

/-! ## Interleavings -/

/-- The effects of a task in a run. -/
def own (k : Nat) (tr : List (Nat × Eff)) : List Eff := (tr.filter (·.1 == k)).map (·.2)

theorem own_append (k : Nat) (a b : List (Nat × Eff)) : own k (a ++ b) = own k a ++ own k b := by simp [own]

theorem mem_own {k : Nat} {tr : List (Nat × Eff)} {e : Eff} (h : (k, e) ∈ tr) : e ∈ own k tr := by
  simp only [own, List.mem_map, List.mem_filter]
  exact ⟨(k, e), ⟨h, by simp⟩, rfl⟩

theorem of_mem_own {k : Nat} {tr : List (Nat × Eff)} {e : Eff} (h : e ∈ own k tr) : (k, e) ∈ tr := by
  simp only [own, List.mem_map, List.mem_filter] at h
  obtain ⟨x, ⟨h, hk⟩, rfl⟩ := h
  rcases x with ⟨x1, x2⟩
  simp only [beq_iff_eq] at hk
  subst hk; exact h

/-- The last effect on the mode in a run is the last one of its task. -/
theorem mode_run (n : Net) (tr : List (Nat × Eff))
    (hend : ∀ k, (∃ e ∈ own k tr, touches n e = true) → mode n true (own k tr) = false)
    (htouch : ∃ x ∈ tr, touches n x.2 = true) (m : Bool) : mode n m (tr.map (·.2)) = false := by
  induction h : tr.length generalizing tr with
  | zero =>
    obtain ⟨x, hx, -⟩ := htouch
    rw [List.length_eq_zero_iff] at h; rw [h] at hx; simp at hx
  | succ len ih =>
    have hne : tr ≠ [] := by intro e; rw [e] at h; simp at h
    obtain ⟨tr', x, rfl⟩ : ∃ tr' x, tr = tr' ++ [x] :=
      ⟨tr.dropLast, tr.getLast hne, (List.dropLast_concat_getLast hne).symm⟩
    simp only [List.map_append, List.map_cons, List.map_nil, mode_append]
    cases ht : touches n x.2 with
    | true =>
      have h0 := hend x.1 ⟨x.2, mem_own (by simp), ht⟩
      rw [own_append] at h0
      have h1 : own x.1 [x] = [x.2] := by simp [own]
      rw [h1, mode_append] at h0
      rw [mode_one_touch n x.2 ht _ (mode n true (own x.1 tr'))]; exact h0
    | false =>
      rw [mode_one_not n x.2 ht]
      refine ih tr' ?_ ?_ (by simpa using h)
      · intro k hk
        obtain ⟨e, he, hte⟩ := hk
        have h0 := hend k ⟨e, by rw [own_append]; simp [he], hte⟩
        rw [own_append] at h0
        by_cases hx : x.1 = k
        · have h1 : own k [x] = [x.2] := by simp [own, hx]
          rw [h1, mode_append, mode_one_not n x.2 ht] at h0; exact h0
        · have h1 : own k [x] = [] := by simp [own, hx]
          rw [h1, List.append_nil] at h0; exact h0
      · obtain ⟨y, hy, hty⟩ := htouch
        simp only [List.mem_append, List.mem_singleton] at hy
        rcases hy with hy | rfl
        · exact ⟨y, hy, hty⟩
        · rw [ht] at hty; simp at hty

/-- A network touched by one task only has the mode this task gives it. -/
theorem mode_single (n : Net) (k : Nat) (tr : List (Nat × Eff)) (h : ∀ x ∈ tr, touches n x.2 = true → x.1 = k) (m : Bool) :
    mode n m (tr.map (·.2)) = mode n m (own k tr) := by
  induction tr generalizing m with
  | nil => rfl
  | cons x tr ih =>
    have ih := fun m => ih (fun y hy => h y (by simp [hy])) m
    have h2 : own k (x :: tr) = own k [x] ++ own k tr := own_append k [x] tr
    rw [h2, mode_append, List.map_cons]
    have h3 : x.2 :: tr.map (·.2) = [x.2] ++ tr.map (·.2) := rfl
    rw [h3, mode_append, ih]
    congr 1
    cases ht : touches n x.2 with
    | true =>
      have := h x (by simp) ht
      simp [own, this]
    | false =>
      by_cases hx : x.1 = k
      · simp [own, hx]
      · simp [own, hx, mode_one_not n x.2 ht, mode]

/-- With one task a run is the task. -/
theorem run_one {l : List Eff} {tr : List (Nat × Eff)} (h : Interleaving [l] tr) : tr.map (·.2) = l := by
  obtain ⟨h1, h2⟩ := h
  have := h2 0
  rw [List.filter_eq_self.mpr] at this
  · simpa using this
  · intro x hx; have := h1 x hx; simp at this; simp [this]

/-- The run of one task. -/
theorem one_run (l : List Eff) : Interleaving [l] (l.map fun e => (0, e)) := by
  refine ⟨by simp, fun k => ?_⟩
  cases k with
  | zero => simp [List.filter_map, Function.comp_def, List.map_map]
  | succ k => simp [List.filter_map, Function.comp_def]

theorem own_task {ts : List (List Eff)} {tr : List (Nat × Eff)} (h : Interleaving ts tr) (k : Nat) : own k tr = ts.getD k [] :=
  h.2 k

/-! ## Backward passes in training mode -/

/-- The backward passes of some effects meet networks in training mode. -/
def safe : (Net → Bool) → List Eff → Prop
  | _, [] => True
  | on, .train n :: l => safe (fun n' => if n' = n then true else on n') l
  | on, .eval n :: l => safe (fun n' => if n' = n then false else on n') l
  | on, .backward n :: l => on n = true ∧ safe on l
  | on, .draw _ :: l => safe on l
  | on, .drawAlways _ :: l => safe on l
  | on, .step _ :: l => safe on l
  | on, .clear :: l => safe on l

theorem safe_spec (l : List Eff) : ∀ (on : Net → Bool), safe on l →
    ∀ (pre post : List Eff) (n : Net), l = pre ++ .backward n :: post → mode n (on n) pre = true := by
  induction l with
  | nil => intro on _ pre post n h; simp at h
  | cons e l ih =>
    intro on hs pre post n h
    cases pre with
    | nil =>
      simp only [List.nil_append, List.cons.injEq] at h
      obtain ⟨rfl, -⟩ := h
      exact hs.1
    | cons e' pre =>
      simp only [List.cons_append, List.cons.injEq] at h
      obtain ⟨rfl, rfl⟩ := h
      cases e with
      | train x => 
        have := ih _ hs pre post n rfl
        simpa [mode, eq_comm (a := x)] using this
      | eval x =>
        have := ih _ hs pre post n rfl
        simpa [mode, eq_comm (a := x)] using this
      | backward x => exact ih _ hs.2 pre post n rfl
      | draw x => exact ih _ hs pre post n rfl
      | drawAlways x => exact ih _ hs pre post n rfl
      | step x => exact ih _ hs pre post n rfl
      | clear => exact ih _ hs pre post n rfl

theorem safe_append (a b : List Eff) : ∀ on : Net → Bool,
    safe on (a ++ b) ↔ safe on a ∧ safe (fun n => mode n (on n) a) b := by
  induction a with
  | nil => intro on; simp [safe, mode]
  | cons e a ih =>
    intro on
    cases e with
    | train x =>
      have h0 : (fun n => mode n (on n) (.train x :: a)) = fun n => mode n (if n = x then true else on n) a := by
        funext n; simp [mode, eq_comm (a := x)]
      rw [h0]; exact ih _
    | eval x =>
      have h0 : (fun n => mode n (on n) (.eval x :: a)) = fun n => mode n (if n = x then false else on n) a := by
        funext n; simp [mode, eq_comm (a := x)]
      rw [h0]; exact ih _
    | backward x => 
      have := ih on
      simp only [List.cons_append, safe, this, and_assoc]; rfl
    | draw x => exact ih _
    | drawAlways x => exact ih _
    | step x => exact ih _
    | clear => exact ih _

theorem safe_still (on : Net → Bool) (l : List Eff) (h : ∀ e ∈ l, (∀ n, touches n e = false) ∧ ∀ n, e = .backward n → on n = true) :
    safe on l := by
  induction l with
  | nil => exact trivial
  | cons e l ih =>
    have ih := ih fun e he => h e (by simp [he])
    have he := h e (by simp)
    cases e with
    | train x => have := he.1 x; simp [touches] at this
    | eval x => have := he.1 x; simp [touches] at this
    | backward x => exact ⟨he.2 x rfl, ih⟩
    | draw x => exact ih
    | drawAlways x => exact ih
    | step x => exact ih
    | clear => exact ih

theorem safe_block (on : Net → Bool) (b : Bool) (l : List Eff) (h : safe on l) : safe on (block b l) := by
  cases b
  · exact trivial
  · exact h

/-! ## Pictures -/

theorem draws_append (a b : List Eff) : ∀ seen : List Net,
    draws seen (a ++ b) = ((draws (draws seen a).1 b).1, (draws seen a).2 ++ (draws (draws seen a).1 b).2) := by
  induction a with
  | nil => intro seen; rfl
  | cons e a ih =>
    intro seen
    cases e with
    | draw n =>
      simp only [List.cons_append, draws]
      split <;> simp [ih]
    | drawAlways n => simp [draws, ih]
    | _ => simp [draws, ih]

theorem draws_spec (l : List Eff) (h : ∀ n, .drawAlways n ∉ l) : ∀ seen : List Net,
    (draws seen l).2.Nodup ∧ (∀ n ∈ (draws seen l).2, n ∉ seen) := by
  induction l with
  | nil => intro seen; simp [draws]
  | cons e l ih =>
    have ih := ih fun n hn => h n (by simp [hn])
    intro seen
    cases e with
    | draw n =>
      simp only [draws]
      split
      · exact ih seen
      · next hn =>
        obtain ⟨h1, h2⟩ := ih (n :: seen)
        refine ⟨List.nodup_cons.mpr ⟨fun hm => ?_, h1⟩, ?_⟩
        · exact h2 n hm (by simp)
        · intro n' hn'
          simp only [List.mem_cons] at hn'
          rcases hn' with rfl | hn'
          · exact hn
          · exact fun hm => h2 n' hn' (by simp [hm])
    | drawAlways n => exact absurd (by simp) (h n)
    | _ => exact ih seen

theorem draws_mem (l : List Eff) : ∀ (seen : List Net) (n : Net), .draw n ∈ l → n ∈ seen ∨ n ∈ (draws seen l).2 := by
  induction l with
  | nil => intro seen n h; simp at h
  | cons e l ih =>
    intro seen n h
    simp only [List.mem_cons] at h
    rcases h with rfl | h
    · simp only [draws]; split
      · exact .inl ‹_›
      · exact .inr (by simp)
    · cases e with
      | draw n' =>
        simp only [draws]; split
        · exact ih seen n h
        · rcases ih (n' :: seen) n h with h' | h'
          · simp only [List.mem_cons] at h'
            rcases h' with rfl | h'
            · exact .inr (by simp)
            · exact .inl h'
          · exact .inr (by simp [h'])
      | drawAlways n' =>
        rcases ih seen n h with h' | h'
        · exact .inl h'
        · exact .inr (by simp [draws, h'])
      | _ => exact ih seen n h

/-! ## Optimizers -/

theorem stepped_eq (o : Store) (l : List Eff) : stepped o l = l.filterMap fun e => match e with | .step s => some (o s) | _ => none := by
  induction l with
  | nil => rfl
  | cons e l ih => cases e <;> simp [stepped, ih]

theorem stepped_map (o o' : Store) (σ : Nat → Nat) (l : List Eff) (h : ∀ s, .step s ∈ l → o' s = σ (o s)) :
    stepped o' l = (stepped o l).map σ := by
  induction l with
  | nil => rfl
  | cons e l ih =>
    have ih := ih fun s hs => h s (by simp [hs])
    cases e with
    | step s => simp [stepped, ih, h s (by simp)]
    | _ => exact ih

theorem mem_stepped (o : Store) (l : List Eff) (x : Nat) : x ∈ stepped o l ↔ ∃ s, .step s ∈ l ∧ x = o s := by
  induction l with
  | nil => simp [stepped]
  | cons e l ih => cases e <;> simp [stepped, ih, or_and_right, exists_or, eq_comm]

theorem assign_not_mem (ss : List Slot) : ∀ (o : Store) (xs : List Nat) (s : Slot), s ∉ ss → assign o ss xs s = o s := by
  induction ss with
  | nil => intro o xs s _; cases xs <;> rfl
  | cons s0 ss ih =>
    intro o xs s hs
    simp only [List.mem_cons, not_or] at hs
    cases xs with
    | nil => rfl
    | cons x xs => simp only [assign]; rw [ih _ _ _ hs.2]; simp [hs.1]

theorem assign_map (g : Slot → Nat) (ss : List Slot) : ∀ (o : Store) (s : Slot), s ∈ ss → assign o ss (ss.map g) s = g s := by
  induction ss with
  | nil => intro o s h; simp at h
  | cons s0 ss ih =>
    intro o s h
    simp only [List.map_cons, assign]
    by_cases hs : s ∈ ss
    · exact ih _ s hs
    · have : s = s0 := by simpa [hs] using h
      subst this
      rw [assign_not_mem ss _ _ _ hs]; simp

/-- The effects of a run are those of the tasks. -/
theorem mem_run {ts : List (List Eff)} {tr : List (Nat × Eff)} (h : Interleaving ts tr) {e : Eff} (he : e ∈ tr.map (·.2)) :
    ∃ l ∈ ts, e ∈ l := by
  simp only [List.mem_map] at he
  obtain ⟨x, hx, rfl⟩ := he
  have h1 := h.1 x hx
  refine ⟨ts[x.1], List.getElem_mem h1, ?_⟩
  have h2 := own_task h x.1
  rw [List.getD_eq_getElem?_getD, List.getElem?_eq_getElem h1, Option.getD_some] at h2
  rw [← h2]
  exact mem_own hx

/-! ## The programs -/

theorem mem_block_iff (b : Bool) (l : List Eff) (e : Eff) : e ∈ block b l ↔ b = true ∧ e ∈ l := by
  cases b <;> simp [block]

theorem mem_loop_iff (k : Nat) (l : List Eff) (e : Eff) : e ∈ loop k l ↔ k ≠ 0 ∧ e ∈ l := by
  simp only [loop, List.mem_flatten, List.mem_replicate]
  constructor
  · rintro ⟨l', ⟨h1, rfl⟩, h2⟩; exact ⟨h1, h2⟩
  · rintro ⟨h1, h2⟩; exact ⟨l, ⟨h1, rfl⟩, h2⟩

theorem mem_pairs (f : Flags) (x : Nat × Nat) : x ∈ pairs f ↔ x.1 < f.agents ∧ x.2 < f.ensemble := by
  simp only [pairs, List.mem_flatMap, List.mem_map, List.mem_range]
  constructor
  · rintro ⟨a, ha, p, hp, rfl⟩; exact ⟨ha, hp⟩
  · rintro ⟨h1, h2⟩; exact ⟨x.1, h1, x.2, h2, rfl⟩

theorem mem_maddpg (f : Flags) (l : List Eff) : l ∈ tasks .maddpg f →
    ∃ a p, a < f.agents ∧ p < f.ensemble ∧ l = maddpgTask f a p := by
  intro h
  simp only [tasks] at h
  split at h
  · simp at h
  · simp only [List.mem_flatMap, List.mem_map, List.mem_range] at h
    obtain ⟨p, hp, a, ha, rfl⟩ := h
    exact ⟨a, p, ha, hp, rfl⟩

/-- All but MADDPG have one task. -/
theorem one_task (alg : Alg) (f : Flags) (hm : alg ≠ .maddpg) : ∃ l, tasks alg f = [l] := by
  cases alg <;> first | exact ⟨_, rfl⟩ | exact absurd rfl hm

theorem step_reads (alg : Alg) (f : Flags) (hg : ∀ b, alg ≠ .gail b) (l : List Eff) (hl : l ∈ tasks alg f) (s : Slot)
    (hs : .step s ∈ l) : s ∈ reads alg f := by
  by_cases hm : alg = .maddpg
  · subst hm
    obtain ⟨a, p, ha, hp, rfl⟩ := mem_maddpg f l hl
    simp only [maddpgTask, List.mem_append, mem_block_iff, List.mem_cons, List.not_mem_nil] at hs
    simp at hs
    simp only [reads, List.mem_append, List.mem_map, mem_pairs, List.mem_range]
    rcases hs with hs | hs
    · exact .inl ⟨a, ha, hs.2.symm⟩
    · exact .inr ⟨(a, p), ⟨ha, hp⟩, hs.2.symm⟩
  · cases alg with
    | gail b => exact absurd rfl (hg b)
    | maddpg => exact absurd rfl hm
    | trpo =>
      simp only [tasks, List.mem_singleton] at hl
      subst hl
      simp only [trpoProg] at hs
      split at hs <;> simp [mem_block_iff, mem_loop_iff] at hs <;> simp [reads, hs]
    | _ =>
      simp only [tasks, List.mem_singleton] at hl
      subst hl
      simp [dqnProg, ddpgProg, td3Prog, sacProg, a2cProg, a3cProg, impalaProg, arsProg, mem_block_iff, mem_loop_iff] at hs
      try (simp [reads]; done)
      try (rcases hs with ⟨-, hs | hs⟩ | hs | hs <;> simp [reads, hs]; done)
      try (rcases hs with ⟨-, hs | hs⟩ | hs <;> simp [reads, hs]; done)
      try (rcases hs with hs | hs | hs | hs <;> simp [reads, hs]; done)
      try (rcases hs with hs | hs | hs <;> simp [reads, hs]; done)
      try (rcases hs with hs | hs <;> simp [reads, hs]; done)
      try (simp [reads, hs]; done)

theorem step_gail (b : Bool) (f : Flags) (l : List Eff) (hl : l ∈ tasks (.gail b) f) (s : Slot) (hs : .step s ∈ l) :
    s = .discriminator ∨ s = .innerActor ∨ s = .innerCritic := by
  simp only [tasks, List.mem_singleton] at hl
  subst hl
  cases b with
  | false =>
    simp [gailProg, a2cProg, mem_block_iff, mem_loop_iff] at hs
    rcases hs with hs | hs | hs <;> simp [hs]
  | true =>
    simp only [gailProg, trpoProg, if_true] at hs
    split at hs <;> simp [mem_block_iff, mem_loop_iff] at hs
    · simp [hs]
    · rcases hs with hs | hs <;> simp [hs]

theorem train_nets (alg : Alg) (f : Flags) (l : List Eff) (hl : l ∈ tasks alg f) (n : Net) (hn : .train n ∈ l) :
    n ∈ nets alg f := by
  cases alg with
  | maddpg =>
    obtain ⟨a, p, ha, hp, rfl⟩ := mem_maddpg f l hl
    simp [maddpgTask, mem_block_iff] at hn
    simp only [nets, List.mem_append, List.mem_map, mem_pairs, List.mem_range]
    rcases hn with rfl | rfl
    · exact .inl (.inl (.inr ⟨(a, p), ⟨ha, hp⟩, rfl⟩))
    · exact .inl (.inl (.inl ⟨a, ha, rfl⟩))
  | gail b =>
    simp only [tasks, List.mem_singleton] at hl
    subst hl
    cases b with
    | false =>
      simp [gailProg, a2cProg, mem_block_iff, mem_loop_iff] at hn
      rcases hn with hn | hn | hn | hn | hn <;> simp [nets, hn]
    | true =>
      simp only [gailProg, trpoProg, if_true] at hn
      split at hn <;> simp [mem_block_iff, mem_loop_iff] at hn <;>
        rcases hn with hn | hn | hn | hn | hn <;> simp [nets, hn]
  | trpo =>
    simp only [tasks, List.mem_singleton] at hl
    subst hl
    simp only [trpoProg] at hn
    split at hn <;> simp [mem_block_iff, mem_loop_iff] at hn <;> rcases hn with hn | hn <;> simp [nets, hn]
  | _ =>
    simp only [tasks, List.mem_singleton] at hl
    subst hl
    simp [dqnProg, ddpgProg, td3Prog, sacProg, a2cProg, a3cProg, impalaProg, arsProg, mem_block_iff, mem_loop_iff] at hn
    try (rcases hn with hn | hn | hn <;> simp [nets, hn]; done)
    try (rcases hn with hn | hn <;> simp [nets, hn]; done)
    try (simp [nets, hn]; done)

theorem no_drawAlways (alg : Alg) (f : Flags) (hm : alg ≠ .maddpg) (l : List Eff) (hl : l ∈ tasks alg f) (n : Net) :
    .drawAlways n ∉ l := by
  intro hn
  cases alg with
  | maddpg => exact hm rfl
  | gail b =>
    simp only [tasks, List.mem_singleton] at hl
    subst hl
    cases b with
    | false => simp [gailProg, a2cProg, mem_block_iff, mem_loop_iff] at hn
    | true =>
      simp only [gailProg, trpoProg, if_true] at hn
      split at hn <;> simp [mem_block_iff, mem_loop_iff] at hn
  | trpo =>
    simp only [tasks, List.mem_singleton] at hl
    subst hl
    simp only [trpoProg] at hn
    split at hn <;> simp [mem_block_iff, mem_loop_iff] at hn
  | _ =>
    simp only [tasks, List.mem_singleton] at hl
    subst hl
    simp [dqnProg, ddpgProg, td3Prog, sacProg, a2cProg, a3cProg, impalaProg, arsProg, mem_block_iff, mem_loop_iff] at hn

theorem mem_draws (l : List Eff) (h : ∀ n, .drawAlways n ∉ l) : ∀ (seen : List Net) (n : Net), n ∈ (draws seen l).2 → .draw n ∈ l := by
  induction l with
  | nil => intro seen n hn; simp [draws] at hn
  | cons e l ih =>
    have ih := ih fun n hn => h n (by simp [hn])
    intro seen n hn
    cases e with
    | draw n' =>
      simp only [draws] at hn
      split at hn
      · exact List.mem_cons_of_mem _ (ih _ _ hn)
      · simp only [List.mem_cons] at hn
        rcases hn with rfl | hn
        · simp
        · exact List.mem_cons_of_mem _ (ih _ _ hn)
    | drawAlways n' => exact absurd (by simp) (h n')
    | _ => exact List.mem_cons_of_mem _ (ih _ _ hn)

theorem draw_asked (alg : Alg) (f : Flags) (hm : alg ≠ .maddpg) (n : Net) :
    (∃ l ∈ tasks alg f, .draw n ∈ l) ↔ n ∈ asked alg f := by
  cases alg with
  | maddpg => exact absurd rfl hm
  | gail b =>
    cases b <;> simp [tasks, asked, gailProg, trpoProg, a2cProg, mem_block_iff, mem_loop_iff] <;> cases f.visualize <;>
      cases f.visualizeInner <;> cases f.policy <;> cases f.zeroGrad <;> by_cases h1 : f.discriminatorTimes = 0 <;>
      by_cases h2 : f.criticTimes = 0 <;> by_cases h3 : f.actorTimes = 0 <;> simp [mem_block_iff, mem_loop_iff, h1, h2, h3]
  | trpo =>
    simp [tasks, asked, trpoProg, mem_block_iff, mem_loop_iff] <;> cases f.visualize <;> cases f.policy <;> cases f.zeroGrad <;>
      by_cases h2 : f.criticTimes = 0 <;> simp [mem_block_iff, mem_loop_iff, h2]
  | _ =>
    simp [tasks, asked, dqnProg, ddpgProg, td3Prog, sacProg, a2cProg, a3cProg, impalaProg, arsProg, mem_block_iff, mem_loop_iff]
      <;> cases f.visualize <;> by_cases h2 : f.criticTimes = 0 <;> by_cases h3 : f.actorTimes = 0 <;>
      simp [h2, h3, or_comm]

/-- The networks that a task touches. -/
theorem touch_train (alg : Alg) (f : Flags) (l : List Eff) (hl : l ∈ tasks alg f) (n : Net) (e : Eff) (he : e ∈ l)
    (ht : touches n e = true) : .train n ∈ l := by
  cases e with
  | train x => simp only [touches, decide_eq_true_eq] at ht; subst ht; exact he
  | eval x =>
    simp only [touches, decide_eq_true_eq] at ht
    subst ht
    cases alg with
    | maddpg =>
      obtain ⟨a, p, ha, hp, rfl⟩ := mem_maddpg f l hl
      simpa [maddpgTask, mem_block_iff] using he
    | gail b =>
      simp only [tasks, List.mem_singleton] at hl
      subst hl
      cases b with
      | false =>
        simp [gailProg, a2cProg, mem_block_iff, mem_loop_iff] at he ⊢
        rcases he with he | he | he | he | he <;> simp [he]
      | true =>
        simp only [gailProg, trpoProg, if_true] at he ⊢
        split at he <;> simp [mem_block_iff, mem_loop_iff] at he ⊢
        · rcases he with he | he | he <;> simp [he]
        · rcases he with he | he | he | he | he <;> simp [he]
    | trpo =>
      simp only [tasks, List.mem_singleton] at hl
      subst hl
      simp only [trpoProg] at he ⊢
      split at he <;> simp [mem_block_iff, mem_loop_iff] at he ⊢
      simp [he]
    | _ =>
      simp only [tasks, List.mem_singleton] at hl
      subst hl
      simpa [dqnProg, ddpgProg, td3Prog, sacProg, a2cProg, a3cProg, impalaProg, arsProg, mem_block_iff, mem_loop_iff] using he
  | _ => simp [touches] at ht

/-- A task leaves the networks it touches in evaluation mode. -/
theorem ends_eval (alg : Alg) (f : Flags) (hz : alg = .trpo → f.policy = true → f.zeroGrad = false) (l : List Eff)
    (hl : l ∈ tasks alg f) (n : Net) (e : Eff) (he : e ∈ l) (ht : touches n e = true) : mode n true l = false := by
  have htr := touch_train alg f l hl n e he ht
  cases alg with
  | maddpg =>
    obtain ⟨a, p, ha, hp, rfl⟩ := mem_maddpg f l hl
    simp [maddpgTask, mem_block_iff] at htr
    simp only [maddpgTask, mode_append]
    rcases htr with rfl | rfl <;> simp [mode]
  | gail b =>
    have hn : n = .actor ∨ n = .critic ∨ n = .discriminator := by
      simpa [nets] using train_nets (.gail b) f l hl n htr
    simp only [tasks, List.mem_singleton] at hl
    subst hl
    simp only [gailProg, mode_append]
    rcases hn with rfl | rfl | rfl <;> simp [mode]
  | trpo =>
    have hn : n = .actor ∨ n = .critic := by simpa [nets] using train_nets .trpo f l hl n htr
    simp only [tasks, List.mem_singleton] at hl
    subst hl
    have h0 : (f.policy && f.zeroGrad) = false := by
      cases hp : f.policy
      · rfl
      · simp [hz rfl hp]
    simp only [trpoProg, h0, mode_append]
    rcases hn with rfl | rfl <;> simp [mode, mode_append]
  | _ =>
    simp only [tasks, List.mem_singleton] at hl
    subst hl
    simp [dqnProg, ddpgProg, td3Prog, sacProg, a2cProg, a3cProg, impalaProg, arsProg, mem_block_iff, mem_loop_iff] at htr
    try simp only [dqnProg, ddpgProg, td3Prog, sacProg, a2cProg, a3cProg, impalaProg, mode_append]
    try (rcases htr with rfl | rfl | rfl <;> simp [mode]; done)
    try (rcases htr with rfl | rfl <;> simp [mode]; done)
    try (subst htr; simp [mode]; done)

theorem safe_loop (on : Net → Bool) (k : Nat) (l : List Eff)
    (h : ∀ e ∈ l, (∀ n, touches n e = false) ∧ ∀ n, e = .backward n → on n = true) : safe on (loop k l) :=
  safe_still on _ fun e he => h e (mem_loop k l e he)

theorem task_safe_a2c (sa sc : Slot) (vis : Bool) (f : Flags) (on : Net → Bool) : safe on (a2cProg sa sc vis f) := by
  simp only [a2cProg, safe_append]
  refine ⟨⟨⟨?_, ?_⟩, ?_⟩, ?_⟩
  · simp [safe]
  · refine safe_loop _ _ _ fun e he => ?_
    simp [mem_block_iff] at he
    rcases he with ⟨-, rfl⟩ | ⟨-, rfl | rfl⟩ <;> simp [touches, mode]
  · refine safe_loop _ _ _ fun e he => ?_
    simp [mem_block_iff] at he
    rcases he with ⟨-, rfl⟩ | ⟨-, rfl | rfl⟩ <;> simp [touches, mode, mode_append]
    rw [mode_loop]
    intro e he
    simp [mem_block_iff] at he
    rcases he with ⟨-, rfl⟩ | ⟨-, rfl | rfl⟩ <;> simp [touches]
  · simp [safe]

theorem task_safe_trpo (sc : Slot) (vis : Bool) (f : Flags) (on : Net → Bool) : safe on (trpoProg sc vis f) := by
  simp only [trpoProg, safe_append]
  refine ⟨⟨⟨?_, ?_⟩, ?_⟩, ?_⟩
  · simp [safe]
  · exact safe_block _ _ _ trivial
  · exact safe_block _ _ _ (by
      simp only [safe, mode_append, and_true]
      rw [mode_block _ _ _ (by simp [touches])]; simp [mode])
  · split
    · exact trivial
    · rw [safe_append]
      refine ⟨safe_loop _ _ _ fun e he => ?_, by simp [safe]⟩
      simp [mem_block_iff] at he
      rcases he with ⟨-, rfl⟩ | ⟨-, rfl | rfl⟩ <;> simp [touches, mode_append, mode]
      rw [mode_block _ f.policy _ (by simp [touches]), mode_block _ vis _ (by simp [touches])]

/-- Every task trains networks in training mode. -/
theorem task_safe (alg : Alg) (f : Flags) (l : List Eff) (hl : l ∈ tasks alg f) (on : Net → Bool) : safe on l := by
  cases alg with
  | maddpg =>
    obtain ⟨a, p, ha, hp, rfl⟩ := mem_maddpg f l hl
    cases h1 : f.visualize <;> cases h2 : f.value <;> cases h3 : f.policy <;>
      simp [maddpgTask, block, safe, h1, h2, h3]
  | gail b =>
    simp only [tasks, List.mem_singleton] at hl
    subst hl
    cases b with
    | false =>
      have h2 := task_safe_a2c .innerActor .innerCritic f.visualizeInner f
      simp only [gailProg, safe_append, Bool.false_eq_true, if_false]
      refine ⟨⟨⟨?_, ?_⟩, h2 _⟩, ?_⟩
      · simp [safe]
      · refine safe_loop _ _ _ fun e he => ?_
        simp [mem_block_iff] at he
        rcases he with ⟨-, rfl | rfl⟩ | ⟨-, rfl⟩ <;> simp [touches, mode]
      · simp [safe]
    | true =>
      have h2 := task_safe_trpo .innerCritic f.visualizeInner f
      simp only [gailProg, safe_append, if_true]
      refine ⟨⟨⟨?_, ?_⟩, h2 _⟩, ?_⟩
      · simp [safe]
      · refine safe_loop _ _ _ fun e he => ?_
        simp [mem_block_iff] at he
        rcases he with ⟨-, rfl | rfl⟩ | ⟨-, rfl⟩ <;> simp [touches, mode]
      · simp [safe]
  | trpo =>
    simp only [tasks, List.mem_singleton] at hl
    subst hl
    exact task_safe_trpo _ _ f on
  | a2c | ppo =>
    simp only [tasks, List.mem_singleton] at hl
    subst hl
    exact task_safe_a2c _ _ _ f on
  | a3c =>
    simp only [tasks, List.mem_singleton] at hl
    subst hl
    simp only [a3cProg, safe_append]
    refine ⟨⟨⟨?_, ?_⟩, ?_⟩, ?_⟩
    · simp [safe]
    · refine safe_loop _ _ _ fun e he => ?_
      simp [mem_block_iff] at he
      rcases he with ⟨-, rfl⟩ | ⟨-, rfl⟩ <;> simp [touches, mode]
    · refine safe_loop _ _ _ fun e he => ?_
      simp [mem_block_iff] at he
      rcases he with ⟨-, rfl⟩ | ⟨-, rfl⟩ <;> simp [touches, mode, mode_append]
      rw [mode_loop]
      intro e he
      simp [mem_block_iff] at he
      rcases he with ⟨-, rfl⟩ | ⟨-, rfl⟩ <;> simp [touches]
    · simp [safe]
  | _ =>
    simp only [tasks, List.mem_singleton] at hl
    subst hl
    cases h1 : f.visualize <;> cases h2 : f.value <;> cases h3 : f.policy <;> cases h4 : f.alpha <;> cases h5 : f.manager <;>
      simp [dqnProg, ddpgProg, td3Prog, sacProg, impalaProg, arsProg, block, safe, h1, h2, h3, h4, h5]

theorem split_map {tr : List (Nat × Eff)} {pre post : List Eff} {e : Eff} (h : tr.map (·.2) = pre ++ e :: post) :
    ∃ pre' x post', tr = pre' ++ x :: post' ∧ pre = pre'.map (·.2) ∧ x.2 = e ∧ post = post'.map (·.2) := by
  obtain ⟨pre', r, rfl, h1, h2⟩ := List.map_eq_append_iff.mp h
  obtain ⟨x, post', rfl, h3, h4⟩ := List.map_eq_cons_iff.mp h2
  exact ⟨pre', x, post', rfl, h1.symm, h3, h4.symm⟩

theorem maddpgTask_inj (f : Flags) (a p a' p' : Nat) (h : maddpgTask f a p = maddpgTask f a' p') : a = a' ∧ p = p' := by
  have := congrArg List.head? h
  simpa [maddpgTask] using this

theorem maddpg_nodup (f : Flags) : (tasks .maddpg f).Nodup := by
  simp only [tasks]
  split
  · exact List.nodup_nil
  · unfold List.Nodup
    rw [List.pairwise_flatMap]
    refine ⟨fun p _ => ?_, ?_⟩
    · rw [List.pairwise_map]
      exact List.Pairwise.imp (fun hab he => hab (maddpgTask_inj f _ _ _ _ he).1) List.nodup_range
    · refine List.Pairwise.imp (fun {p p'} hpp l hl l' hl' he => ?_) List.nodup_range
      simp only [List.mem_map] at hl hl'
      obtain ⟨a, -, rfl⟩ := hl
      obtain ⟨a', -, rfl⟩ := hl'
      exact hpp (maddpgTask_inj f _ _ _ _ he).2

theorem getElem_inj_of_nodup {α : Type} {l : List α} (h : l.Nodup) {i j : Nat} (hi : i < l.length) (hj : j < l.length)
    (he : l[i] = l[j]) : i = j := by
  have h0 := List.pairwise_iff_getElem.mp h
  rcases Nat.lt_trichotomy i j with hl | hl | hl
  · exact absurd he (h0 i j hi hj hl)
  · exact hl
  · exact absurd he.symm (h0 j i hj hi hl)

/-- A network that belongs to one task is touched and trained by this task alone. -/
theorem one_owner (f : Flags) (n : Net) (hn : f.ensemble ≤ 1 ∨ ∃ a p, n = .actorOf a p) (k k' : Nat)
    (hk : k < (tasks .maddpg f).length) (hk' : k' < (tasks .maddpg f).length) (e e' : Eff)
    (he : e ∈ (tasks .maddpg f)[k]) (ht : touches n e = true) (he' : .backward n ∈ (tasks .maddpg f)[k']) : k = k' := by
  have htr := touch_train .maddpg f _ (List.getElem_mem hk) n e he ht
  obtain ⟨a, p, ha, hp, h1⟩ := mem_maddpg f _ (List.getElem_mem hk)
  obtain ⟨a', p', ha', hp', h2⟩ := mem_maddpg f _ (List.getElem_mem hk')
  rw [h1] at htr
  rw [h2] at he'
  simp [maddpgTask, mem_block_iff] at htr he'
  have : a = a' ∧ p = p' := by
    rcases hn with hn | ⟨x, y, rfl⟩
    · have h3 : p = 0 := by omega
      have h4 : p' = 0 := by omega
      subst h3 h4
      rcases htr with rfl | rfl <;> simp at he' <;> exact ⟨he'.2, rfl⟩
    · simp at htr he'
      omega
  obtain ⟨rfl, rfl⟩ := this
  exact getElem_inj_of_nodup (maddpg_nodup f) hk hk' (h1.trans h2.symm)

end Machin.Effects
