import Verif.World.Create

/-! # Lemmas on the creation of groups -/

namespace Machin.Create

theorem upd_apply {B : Type} (f : Nat → B) (a : Nat) (b : B) (x : Nat) : upd f a b x = if x = a then b else f x := rfl

/-- A member has entered, or is a member 0 that has failed. -/
def ent (s : State) (i : Nat) : Prop := s.phase i = .waiting ∨ s.phase i = .returned ∨ (i = 0 ∧ s.phase 0 = .failed)

theorem ent_step (n man : Nat) (s : State) (st : Step) (i : Nat) (h : ent s i) : ent (step n man s st) i := by
  unfold ent at *
  cases st with
  | world j =>
    simp only [step]
    split
    · exact h
    · dsimp only
      split
      · rename_i hj
        simp only [upd_apply]
        by_cases e : i = j
        · subst e
          simp only [hj] at h
          rcases h with h | h | ⟨rfl, h⟩
          · cases h
          · cases h
          · rw [hj] at h; cases h
        · rw [if_neg e]
          rcases h with h | h | ⟨rfl, h⟩
          · exact .inl h
          · exact .inr (.inl h)
          · exact .inr (.inr ⟨rfl, by rw [if_neg e]; exact h⟩)
      · exact h
  | call j =>
    simp only [step]
    split
    · exact h
    · rename_i hj
      have hj : s.phase j = .ready := by
        apply Decidable.byContradiction; intro hc; exact hj (Or.inr hc)
      have hne : i ≠ j := by
        rintro rfl
        rcases h with h | h | ⟨rfl, h⟩ <;> rw [hj] at h <;> cases h
      split <;> dsimp only <;> simp only [upd_apply, if_neg hne] <;>
      · rcases h with h | h | ⟨rfl, h⟩
        · exact .inl h
        · exact .inr (.inl h)
        · exact .inr (.inr ⟨rfl, by rw [if_neg hne]; exact h⟩)
  | ask => simp only [step]; split <;> exact h
  | answer j =>
    simp only [step]
    split
    · split <;> exact h
    · exact h
  | next =>
    simp only [step]
    split
    · rename_i h0
      split
      · exact h
      · split
        · exact h
        · dsimp only
          simp only [upd_apply, if_true]
          by_cases e : i = 0
          · exact .inr (.inr ⟨e, trivial⟩)
          · rw [if_neg e]
            rcases h with h | h | h
            · exact .inl h
            · exact .inr (.inl h)
            · exact absurd h.1 e
        · exact h
        · split <;> exact h
      · split
        · split
          · exact h
          · dsimp only
            simp only [upd_apply]
            by_cases e : i = 0
            · rw [if_pos e]; exact .inr (.inl rfl)
            · rw [if_neg e]
              rcases h with h | h | h
              · exact .inl h
              · exact .inr (.inl h)
              · exact absurd h.1 e
        · exact h
    · exact h
  | unlock j =>
    simp only [step]
    split
    · split <;> exact h
    · exact h
  | check j =>
    simp only [step]
    split
    · rename_i hj
      dsimp only
      simp only [upd_apply]
      by_cases e : i = j
      · rw [if_pos e]; exact .inr (.inl rfl)
      · rw [if_neg e]
        rcases h with h | h | h
        · exact .inl h
        · exact .inr (.inl h)
        · exact .inr (.inr ⟨h.1, by rw [if_neg (by omega)]; exact h.2⟩)
    · exact h

/-- The loop of member 0 is behind the answers. -/
def unlocks (s : State) : Prop := ∃ k, s.pos = .unlocking k

/-- What holds in every history. -/
structure Inv (n : Nat) (s : State) : Prop where
  sig : ∀ i, s.signal i = some false → ent s i
  rep : ∀ i, s.reply i = some (.bool true) → ent s i
  asked : ∀ k, s.pos = .asked k → k < n ∧ ∀ j < k, ent s j
  passed : ∀ k, s.pos = .unlocking k → k < n ∧ (∀ j < n, ent s j) ∧ (∀ j < k, s.unlocked j = true) ∧
    (s.phase 0 = .waiting ∨ s.phase 0 = .returned)
  open_ : ∀ i, s.phase i = .waiting → s.signal i = some false ∨ (s.signal i = some true ∧ unlocks s)
  ret : ∀ i, s.phase i = .returned → unlocks s
  unl : ∀ i, s.unlocked i = true → unlocks s → s.signal i = some true
  lead : s.phase 0 = .returned → ∀ j < n, s.unlocked j = true
  pos0 : s.pos ≠ .sleeping → s.phase 0 = .waiting ∨ s.phase 0 = .returned ∨ s.phase 0 = .failed

theorem Inv.step {n : Nat} (man : Nat) {s : State} (h : Inv n s) (st : Step) (hn : 0 < n) : Inv n (step n man s st) := by
  have hmono := fun i => ent_step n man s st i
  cases st with
  | world j =>
    by_cases hw : s.world j = true
    · have e : Create.step n man s (.world j) = s := by simp only [Create.step]; rw [if_pos hw]
      rw [e]; exact h
    by_cases hp : s.phase j = .starting
    · have e : Create.step n man s (.world j) = { s with world := upd s.world j true, phase := upd s.phase j .ready } := by
        simp only [Create.step]; rw [if_neg hw, if_pos hp]
      rw [e] at hmono ⊢
      have hne : ∀ i p, upd s.phase j .ready i = p → p ≠ .ready → s.phase i = p := by
        intro i p hi hp'
        rw [upd_apply] at hi
        split at hi
        · exact absurd hi.symm hp'
        · exact hi
      have h0 : ∀ p, s.phase 0 = p → p ≠ .starting → upd s.phase j .ready 0 = p := by
        intro p h0 hp'
        rw [upd_apply, if_neg]
        · exact h0
        · rintro rfl; rw [hp] at h0; exact hp' h0.symm
      constructor
      · exact fun i hi => hmono i (h.sig i hi)
      · exact fun i hi => hmono i (h.rep i hi)
      · exact fun k hk => ⟨(h.asked k hk).1, fun j hj => hmono j ((h.asked k hk).2 j hj)⟩
      · exact fun k hk => ⟨(h.passed k hk).1, fun j hj => hmono j ((h.passed k hk).2.1 j hj), (h.passed k hk).2.2.1,
          (h.passed k hk).2.2.2.imp (fun e => h0 _ e (by simp)) (fun e => h0 _ e (by simp))⟩
      · exact fun i hi => h.open_ i (hne i _ hi (by simp))
      · exact fun i hi => h.ret i (hne i _ hi (by simp))
      · exact h.unl
      · exact fun hi => h.lead (hne 0 _ hi (by simp))
      · exact fun hi => (h.pos0 hi).imp (fun e => h0 _ e (by simp)) (Or.imp (fun e => h0 _ e (by simp)) (fun e => h0 _ e (by simp)))
    · have e : Create.step n man s (.world j) = { s with world := upd s.world j true } := by
        simp only [Create.step]; rw [if_neg hw, if_neg hp]
      rw [e]
      exact ⟨h.sig, h.rep, h.asked, h.passed, h.open_, h.ret, h.unl, h.lead, h.pos0⟩
  | call j =>
    by_cases hc : n ≤ j ∨ s.phase j ≠ .ready
    · have e : Create.step n man s (.call j) = s := by simp only [Create.step]; rw [if_pos hc]
      rw [e]; exact h
    have hj : j < n ∧ s.phase j = .ready := by
      constructor
      · apply Decidable.byContradiction; intro h'; exact hc (Or.inl (by omega))
      · apply Decidable.byContradiction; intro h'; exact hc (Or.inr h')
    have hnot : ¬ unlocks s := by
      rintro ⟨k, hk⟩
      rcases (h.passed k hk).2.1 j hj.1 with h' | h' | h'
      · rw [hj.2] at h'; cases h'
      · rw [hj.2] at h'; cases h'
      · rw [h'.1] at hj; rw [hj.2] at h'; cases h'.2
    have hpos : j = 0 → s.pos = .sleeping := by
      rintro rfl
      apply Decidable.byContradiction
      intro hp
      rcases h.pos0 hp with h' | h' | h' <;> rw [hj.2] at h' <;> cases h'
    by_cases hw : s.world man = true
    · have e : Create.step n man s (.call j) = { s with phase := upd s.phase j .waiting, signal := upd s.signal j (some false) } := by
        simp only [Create.step]; rw [if_neg hc, if_pos hw]
      rw [e] at hmono ⊢
      constructor
      · intro i hi
        dsimp only at hi
        rw [upd_apply] at hi
        split at hi
        · rename_i e; left; dsimp only; rw [upd_apply, if_pos e]
        · exact hmono i (h.sig i hi)
      · exact fun i hi => hmono i (h.rep i hi)
      · exact fun k hk => ⟨(h.asked k hk).1, fun j hj => hmono j ((h.asked k hk).2 j hj)⟩
      · exact fun k hk => absurd ⟨k, hk⟩ hnot
      · intro i hi
        dsimp only at hi ⊢
        rw [upd_apply] at hi ⊢
        split
        · exact .inl rfl
        · rename_i e
          rw [if_neg e] at hi
          rcases h.open_ i hi with h' | h'
          · exact .inl h'
          · exact absurd h'.2 hnot
      · intro i hi
        dsimp only at hi
        rw [upd_apply] at hi
        split at hi
        · cases hi
        · exact absurd (h.ret i hi) hnot
      · exact fun i _ hu => absurd hu hnot
      · intro hi
        dsimp only at hi
        rw [upd_apply] at hi
        split at hi
        · cases hi
        · exact h.lead hi
      · intro hp
        dsimp only at hp ⊢
        rw [upd_apply, if_neg (fun e => hp (hpos e.symm))]
        exact h.pos0 hp
    · have e : Create.step n man s (.call j) = { s with phase := upd s.phase j .failed } := by
        simp only [Create.step]; rw [if_neg hc, if_neg hw]
      rw [e] at hmono ⊢
      have hne : ∀ i p, upd s.phase j .failed i = p → p ≠ .failed → s.phase i = p := by
        intro i p hi hp'
        rw [upd_apply] at hi
        split at hi
        · exact absurd hi.symm hp'
        · exact hi
      constructor
      · exact fun i hi => hmono i (h.sig i hi)
      · exact fun i hi => hmono i (h.rep i hi)
      · exact fun k hk => ⟨(h.asked k hk).1, fun j hj => hmono j ((h.asked k hk).2 j hj)⟩
      · exact fun k hk => absurd ⟨k, hk⟩ hnot
      · exact fun i hi => h.open_ i (hne i _ hi (by simp))
      · exact fun i hi => absurd (h.ret i (hne i _ hi (by simp))) hnot
      · exact h.unl
      · exact fun hi => h.lead (hne 0 _ hi (by simp))
      · intro hp
        dsimp only at hp ⊢
        rw [upd_apply, if_neg (fun e => hp (hpos e.symm))]
        exact h.pos0 hp
  | ask =>
    by_cases hc : s.phase 0 = .waiting ∧ s.pos = .sleeping
    · have e : Create.step n man s .ask = { s with pos := .asked 0, reply := fun _ => none } := by
        simp only [Create.step]; rw [if_pos hc]
      rw [e]
      have hnot : ¬ unlocks s := by rintro ⟨k, hk⟩; rw [hc.2] at hk; cases hk
      constructor
      · exact h.sig
      · intro i hi; cases hi
      · intro k hk; cases hk; exact ⟨hn, fun j hj => absurd hj (by omega)⟩
      · intro k hk; cases hk
      · intro i hi
        rcases h.open_ i hi with h' | h'
        · exact .inl h'
        · exact absurd h'.2 hnot
      · exact fun i hi => absurd (h.ret i hi) hnot
      · rintro i _ ⟨k, hk⟩; cases hk
      · exact h.lead
      · exact fun _ => .inl hc.1
    · have e : Create.step n man s .ask = s := by simp only [Create.step]; rw [if_neg hc]
      rw [e]; exact h
  | answer j =>
    cases hp : s.pos with
    | asked k =>
      by_cases hc : s.phase 0 = .waiting ∧ s.reply j = none
      · have e : Create.step n man s (.answer j) =
            { s with reply := upd s.reply j (some (if s.world j then .bool (decide (s.signal j = some false)) else .error)) } := by
          simp only [Create.step, hp]; rw [if_pos hc]
        rw [e]
        refine ⟨h.sig, ?_, h.asked, h.passed, h.open_, h.ret, h.unl, h.lead, h.pos0⟩
        intro i hi
        dsimp only at hi
        rw [upd_apply] at hi
        split at hi
        · rename_i e
          split at hi
          · simp only [Option.some.injEq, Reply.bool.injEq, decide_eq_true_eq] at hi
            rw [e]
            exact h.sig j hi
          · cases hi
        · exact h.rep i hi
      · have e : Create.step n man s (.answer j) = s := by simp only [Create.step, hp]; rw [if_neg hc]
        rw [e]; exact h
    | sleeping => have e : Create.step n man s (.answer j) = s := by simp only [Create.step, hp]
                  rw [e]; exact h
    | unlocking k => have e : Create.step n man s (.answer j) = s := by simp only [Create.step, hp]
                     rw [e]; exact h
  | next =>
    by_cases h0 : s.phase 0 ≠ .waiting
    · have e : Create.step n man s .next = s := by simp only [Create.step]; rw [if_neg h0]
      rw [e]; exact h
    have h0 := Decidable.not_not.1 h0
    cases hp : s.pos with
    | sleeping => have e : Create.step n man s .next = s := by simp only [Create.step, hp]; rw [if_pos h0]
                  rw [e]; exact h
    | asked k =>
      have hnot : ¬ unlocks s := by rintro ⟨k, hk⟩; rw [hp] at hk; cases hk
      have hopen : ∀ i, s.phase i = .waiting → s.signal i = some false := by
        intro i hi
        rcases h.open_ i hi with h' | h'
        · exact h'
        · exact absurd h'.2 hnot
      cases hr : s.reply k with
      | none => have e : Create.step n man s .next = s := by simp only [Create.step, hp, hr]; rw [if_pos h0]
                rw [e]; exact h
      | some r =>
        cases r with
        | error =>
          have e : Create.step n man s .next = { s with phase := upd s.phase 0 .failed } := by
            simp only [Create.step, hp, hr]; rw [if_pos h0]
          rw [e] at hmono ⊢
          constructor
          · exact fun i hi => hmono i (h.sig i hi)
          · exact fun i hi => hmono i (h.rep i hi)
          · exact fun k hk => ⟨(h.asked k hk).1, fun j hj => hmono j ((h.asked k hk).2 j hj)⟩
          · exact fun k hk => absurd ⟨k, hk⟩ hnot
          · intro i hi
            dsimp only at hi
            rw [upd_apply] at hi
            split at hi
            · cases hi
            · exact .inl (hopen i hi)
          · intro i hi
            dsimp only at hi
            rw [upd_apply] at hi
            split at hi
            · cases hi
            · exact absurd (h.ret i hi) hnot
          · exact fun i _ hu => absurd hu hnot
          · intro hi
            dsimp only at hi
            rw [upd_apply, if_pos rfl] at hi
            cases hi
          · intro _
            exact .inr (.inr (by dsimp only; rw [upd_apply, if_pos rfl]))
        | bool b =>
          cases b with
          | false =>
            have e : Create.step n man s .next = { s with pos := .sleeping } := by
              simp only [Create.step, hp, hr]; rw [if_pos h0]
            rw [e]
            refine ⟨h.sig, h.rep, fun k hk => by (cases hk), fun k hk => by (cases hk), fun i hi => .inl (hopen i hi),
              fun i hi => absurd (h.ret i hi) hnot, fun i _ hu => ?_, h.lead, fun hk => absurd rfl hk⟩
            obtain ⟨k, hk⟩ := hu
            cases hk
          | true =>
            have hk := h.rep k hr
            by_cases hlt : k + 1 < n
            · have e : Create.step n man s .next = { s with pos := .asked (k + 1) } := by
                simp only [Create.step, hp, hr]; rw [if_pos h0, if_pos hlt]
              rw [e]
              refine ⟨h.sig, h.rep, ?_, fun k hk => by (cases hk), fun i hi => .inl (hopen i hi),
                fun i hi => absurd (h.ret i hi) hnot, fun i _ hu => ?_, h.lead, fun _ => .inl h0⟩
              · intro k' hk'
                cases hk'
                refine ⟨hlt, fun j hj => ?_⟩
                by_cases e : j = k
                · rw [e]; exact hk
                · exact (h.asked k hp).2 j (by omega)
              · obtain ⟨k, hk⟩ := hu
                cases hk
            · have e : Create.step n man s .next = { s with pos := .unlocking 0, unlocked := fun _ => false } := by
                simp only [Create.step, hp, hr]; rw [if_pos h0, if_neg hlt]
              rw [e]
              refine ⟨h.sig, h.rep, fun k hk => by (cases hk), ?_, fun i hi => .inl (hopen i hi),
                fun i hi => absurd (h.ret i hi) hnot, fun i hi => by (cases hi), fun hi => ?_, fun _ => .inl h0⟩
              · intro k' hk'
                cases hk'
                have := (h.asked k hp).1
                refine ⟨hn, fun j hj => ?_, fun j hj => absurd hj (by omega), .inl h0⟩
                by_cases e : j = k
                · rw [e]; exact hk
                · exact (h.asked k hp).2 j (by omega)
              · dsimp only at hi; rw [h0] at hi; cases hi
    | unlocking k =>
      have hpass := h.passed k hp
      by_cases hu : s.unlocked k = true
      · by_cases hlt : k + 1 < n
        · have e : Create.step n man s .next = { s with pos := .unlocking (k + 1) } := by
            simp only [Create.step, hp]; rw [if_pos h0, if_pos hu, if_pos hlt]
          rw [e]
          have hun : ∀ pos', unlocks { s with pos := .unlocking pos' } := fun p => ⟨p, rfl⟩
          refine ⟨h.sig, h.rep, fun k hk => by (cases hk), ?_, fun i hi => (h.open_ i hi).imp id fun h' => ⟨h'.1, hun _⟩,
            fun i hi => hun _, fun i hi _ => h.unl i hi ⟨k, hp⟩, h.lead, fun _ => .inl h0⟩
          intro k' hk'
          cases hk'
          refine ⟨hlt, hpass.2.1, fun j hj => ?_, .inl h0⟩
          by_cases e : j = k
          · rw [e]; exact hu
          · exact hpass.2.2.1 j (by omega)
        · have e : Create.step n man s .next = { s with phase := upd s.phase 0 .returned } := by
            simp only [Create.step, hp]; rw [if_pos h0, if_pos hu, if_neg hlt]
          rw [e] at hmono ⊢
          have hun : unlocks { s with phase := upd s.phase 0 .returned } := ⟨k, hp⟩
          refine ⟨fun i hi => hmono i (h.sig i hi), fun i hi => hmono i (h.rep i hi),
            fun k hk => by (dsimp only at hk; rw [hp] at hk; cases hk), ?_, ?_, fun i _ => hun, fun i hi _ => h.unl i hi ⟨k, hp⟩, ?_, ?_⟩
          · intro k' hk'
            refine ⟨(h.passed k' hk').1, fun j hj => hmono j (hpass.2.1 j hj), (h.passed k' hk').2.2.1, .inr ?_⟩
            dsimp only
            rw [upd_apply, if_pos rfl]
          · intro i hi
            dsimp only at hi
            rw [upd_apply] at hi
            split at hi
            · cases hi
            · exact (h.open_ i hi).imp id fun h' => ⟨h'.1, hun⟩
          · intro _ j hj
            by_cases e : j = k
            · rw [e]; exact hu
            · exact hpass.2.2.1 j (by omega)
          · intro _
            exact .inr (.inl (by dsimp only; rw [upd_apply, if_pos rfl]))
      · have e : Create.step n man s .next = s := by simp only [Create.step, hp]; rw [if_pos h0, if_neg hu]
        rw [e]; exact h
  | unlock j =>
    cases hp : s.pos with
    | asked k => have e : Create.step n man s (.unlock j) = s := by simp only [Create.step, hp]
                 rw [e]; exact h
    | sleeping => have e : Create.step n man s (.unlock j) = s := by simp only [Create.step, hp]
                  rw [e]; exact h
    | unlocking k =>
      by_cases hc : j < n ∧ s.unlocked j = false
      · have e : Create.step n man s (.unlock j) = { s with signal := upd s.signal j (some true), unlocked := upd s.unlocked j true } := by
          simp only [Create.step, hp]; rw [if_pos hc]
        rw [e]
        have hun : unlocks { s with signal := upd s.signal j (some true), unlocked := upd s.unlocked j true } := ⟨k, hp⟩
        have hmu : ∀ i, s.unlocked i = true → upd s.unlocked j true i = true := by
          intro i hi
          rw [upd_apply]
          split
          · rfl
          · exact hi
        refine ⟨?_, h.rep, h.asked, ?_, ?_, fun i _ => hun, ?_, ?_, h.pos0⟩
        · intro i hi
          dsimp only at hi
          rw [upd_apply] at hi
          split at hi
          · cases hi
          · exact h.sig i hi
        · intro k' hk'
          have := h.passed k' hk'
          exact ⟨this.1, this.2.1, fun i hi => hmu i (this.2.2.1 i hi), this.2.2.2⟩
        · intro i hi
          dsimp only
          rw [upd_apply]
          split
          · exact .inr ⟨rfl, hun⟩
          · exact (h.open_ i hi).imp id fun h' => ⟨h'.1, hun⟩
        · intro i hi _
          dsimp only at hi ⊢
          rw [upd_apply] at hi ⊢
          split
          · rfl
          · rename_i e
            rw [if_neg e] at hi
            exact h.unl i hi ⟨k, hp⟩
        · intro hi i hlt
          exact hmu i (h.lead hi i hlt)
      · have e : Create.step n man s (.unlock j) = s := by simp only [Create.step, hp]; rw [if_neg hc]
        rw [e]; exact h
  | check j =>
    by_cases hc : j ≠ 0 ∧ s.phase j = .waiting ∧ s.signal j = some true
    · have e : Create.step n man s (.check j) = { s with phase := upd s.phase j .returned } := by
        simp only [Create.step]; rw [if_pos hc]
      rw [e] at hmono ⊢
      have hu : unlocks s := by
        rcases h.open_ j hc.2.1 with h' | h'
        · rw [hc.2.2] at h'; cases h'
        · exact h'.2
      have h0 : upd s.phase j .returned 0 = s.phase 0 := by rw [upd_apply, if_neg (fun e => hc.1 e.symm)]
      refine ⟨fun i hi => hmono i (h.sig i hi), fun i hi => hmono i (h.rep i hi),
        fun k hk => ⟨(h.asked k hk).1, fun j hj => hmono j ((h.asked k hk).2 j hj)⟩, ?_, ?_, fun i _ => hu, fun i hi _ => h.unl i hi hu,
        fun hi => h.lead (by rw [← h0]; exact hi), fun hi => by dsimp only; rw [h0]; exact h.pos0 hi⟩
      · intro k hk
        have := h.passed k hk
        exact ⟨this.1, fun i hi => hmono i (this.2.1 i hi), this.2.2.1, by dsimp only; rw [h0]; exact this.2.2.2⟩
      · intro i hi
        dsimp only at hi
        rw [upd_apply] at hi
        split at hi
        · cases hi
        · exact h.open_ i hi
    · have e : Create.step n man s (.check j) = s := by simp only [Create.step]; rw [if_neg hc]
      rw [e]; exact h

theorem run_append (n man : Nat) (s : State) (a b : List Step) : run n man s (a ++ b) = run n man (run n man s a) b := by
  simp [run, List.foldl_append]

theorem Inv.run {n : Nat} (man : Nat) {s : State} (h : Inv n s) (hn : 0 < n) (steps : List Step) : Inv n (run n man s steps) := by
  induction steps generalizing s with
  | nil => exact h
  | cons st steps ih => exact ih (h.step man st hn)

/-- The beginning. -/
theorem Inv.start (n : Nat) (s : State) (hsig : ∀ i, s.signal i ≠ some false) (hph : ∀ i, s.phase i = .starting ∨ s.phase i = .ready)
    (hpos : s.pos = .sleeping) (hrep : ∀ i, s.reply i = none) (hunl : ∀ i, s.unlocked i = false) : Inv n s := by
  have hw : ∀ i p, s.phase i = p → p ≠ .starting → p ≠ .ready → False := by
    intro i p h h1 h2
    rcases hph i with h' | h' <;> rw [h] at h'
    · exact h1 h'
    · exact h2 h'
  constructor
  · exact fun i hi => absurd hi (hsig i)
  · intro i hi; rw [hrep] at hi; cases hi
  · intro k hk; rw [hpos] at hk; cases hk
  · intro k hk; rw [hpos] at hk; cases hk
  · exact fun i hi => (hw i _ hi (by simp) (by simp)).elim
  · exact fun i hi => (hw i _ hi (by simp) (by simp)).elim
  · intro i hi; rw [hunl] at hi; cases hi
  · exact fun hi => (hw 0 _ hi (by simp) (by simp)).elim
  · exact fun hi => absurd hpos hi

/-- The processes whose `World()` has returned. -/
theorem world_step (n man : Nat) (s : State) (st : Step) (i : Nat) (h : s.world i = true) : (step n man s st).world i = true := by
  cases st <;> simp only [step]
  case world j =>
    split
    · exact h
    · dsimp only; rw [upd_apply]; split
      · rfl
      · exact h
  case call j => split; · exact h
                 split <;> exact h
  case ask => split <;> exact h
  case answer j => split <;> (try split) <;> exact h
  case next =>
    split
    · split
      · exact h
      · split <;> (try split) <;> exact h
      · split <;> (try split) <;> exact h
    · exact h
  case unlock j => split <;> (try split) <;> exact h
  case check j => split <;> exact h

end Machin.Create
