import Verif.Server.Props

/-! # C226: the models that samplers act with -/

namespace Machin.Server

variable {ν : Type}

theorem Net.run_append (n : Net ν) (as bs : List (Act ν)) :
    n.run (as ++ bs) = (((n.run as).1.run bs).1, (n.run as).2 ++ ((n.run as).1.run bs).2) := by
  induction as generalizing n with
  | nil => simp [Net.run]
  | cons a as ih => simp only [List.cons_append, Net.run, ih, List.append_assoc]

/-- The client that a step belongs to. -/
def Act.owner : Act ν → Nat
  | .train i _ => i
  | .push i _ => i
  | .finish i => i
  | .pull i => i

theorem Net.step_other (n : Net ν) (a : Act ν) (i : Nat) (h : a.owner ≠ i) : (n.step a).1.client i = n.client i := by
  have h' : i ≠ a.owner := fun hc => h hc.symm
  cases a with
  | train j p =>
    simp only [Act.owner] at h'
    simp only [Net.step]
    split <;> simp [Net.setClient, h']
  | push j b =>
    simp only [Act.owner] at h'
    simp only [Net.step]
    split
    · rfl
    · split <;> simp [Net.setClient, h']
  | finish j =>
    simp only [Act.owner] at h'
    simp only [Net.step]
    split
    · split <;> simp [Net.setClient, h']
    · rfl
  | pull j =>
    simp only [Act.owner] at h'
    simp only [Net.step]
    split
    · rfl
    · split
      · rfl
      · split <;> simp [Net.setClient, h']

theorem Net.run_other (n : Net ν) (as : List (Act ν)) (i : Nat) (h : ∀ a ∈ as, a.owner ≠ i) : (n.run as).1.client i = n.client i := by
  induction as generalizing n with
  | nil => rfl
  | cons a as ih =>
    simp only [Net.run]
    rw [ih _ fun b hb => h b (by simp [hb]), Net.step_other n a i (h a (by simp))]

/-- C226: the version of a client never goes back: later it holds the same version or a newer one, whatever the clients do. -/
theorem C226_monotone (p : Nat → ν) (as bs : List (Act ν)) (i : Nat) :
    ((after p as).client i).version.getD 0 ≤ ((after p (as ++ bs)).client i).version.getD 0 := by
  induction bs using List.reverseRecOn with
  | nil => simp
  | append_singleton bs b ih =>
    refine Nat.le_trans ih ?_
    have e : (after p (as ++ (bs ++ [b]))) = ((after p (as ++ bs)).step b).1 := by
      simp only [after]
      rw [← List.append_assoc, Net.run_append]
      rfl
    rw [e]
    have hb := (ninv_run p (as ++ bs)).bound i
    have hp := (ninv_run p (as ++ bs)).pull
    generalize hn : after p (as ++ bs) = n at *
    change ((Net.init p).run (as ++ bs)).1 = n at hn
    rw [hn] at hb hp
    by_cases ho : b.owner = i
    · have hlen : ∀ q v, n.server.pull () none = some (q, v) → (n.client i).version.getD 0 ≤ v := by
        intro q v hq
        rw [hp] at hq
        cases hl : ((Net.init p).run (as ++ bs)).2.getLast? with
        | none => rw [hl] at hq; simp at hq
        | some e =>
          rw [hl] at hq
          simp only [Option.map_some, Option.some.injEq, Prod.mk.injEq] at hq
          omega
      cases b with
      | train j q =>
        simp only [Act.owner] at ho
        subst ho
        simp only [Net.step]
        split <;> simp [Net.setClient]
      | push j q =>
        simp only [Act.owner] at ho
        subst ho
        simp only [Net.step]
        split
        · exact Nat.le_refl _
        · split <;> simp [Net.setClient]
      | finish j =>
        simp only [Act.owner] at ho
        subst ho
        simp only [Net.step]
        split
        · split
          · rename_i q v hq
            simpa [Net.setClient] using hlen q v hq
          · simp [Net.setClient]
        · exact Nat.le_refl _
      | pull j =>
        simp only [Act.owner] at ho
        subst ho
        simp only [Net.step]
        split
        · exact Nat.le_refl _
        · split
          · exact Nat.le_refl _
          · rename_i q v hq
            split
            · simpa [Net.setClient] using hlen q v hq
            · exact Nat.le_refl _
    · rw [Net.step_other n b i ho]
      exact Nat.le_refl _

/-- What a sampler does: it only pulls (`act` and `manual_sync`, apex.py:117-138 and 366-411, impala.py:180-195), it neither trains nor pushes. -/
def OnlyPulls (i : Nat) (as : List (Act ν)) : Prop := ∀ a ∈ as, a.owner = i → ∃ j, a = .pull j

theorem sampler_inv (p : Nat → ν) (i : Nat) (as : List (Act ν)) (h : OnlyPulls i as) :
    ((after p as).client i).pulling = false ∧
    ((((after p as).client i).version = none ∧ ((after p as).client i).params = p i) ∨
      ∃ v e, ((after p as).client i).version = some (v + 1) ∧ (pushes p as)[v]? = some e ∧ ((after p as).client i).params = e.2.2) := by
  induction as using List.reverseRecOn with
  | nil => exact ⟨rfl, Or.inl ⟨rfl, rfl⟩⟩
  | append_singleton as a ih =>
    have ih := ih fun b hb => h b (by simp [hb])
    have e : after p (as ++ [a]) = ((after p as).step a).1 := by
      simp only [after]
      rw [Net.run_append]
      rfl
    have e2 : pushes p (as ++ [a]) = pushes p as ++ (after p as).event a := by
      simp only [pushes, after]
      rw [Net.run_append]
      simp [Net.run]
    have hpre : ∀ (v : Nat) (x : Nat × Option Nat × ν), (pushes p as)[v]? = some x → (pushes p (as ++ [a]))[v]? = some x := by
      intro v x hx
      rw [e2]
      obtain ⟨hlt, hx⟩ := List.getElem?_eq_some_iff.mp hx
      rw [List.getElem?_append_left hlt, List.getElem?_eq_some_iff]
      exact ⟨hlt, hx⟩
    rw [e]
    by_cases ho : a.owner = i
    · obtain ⟨j, rfl⟩ := h a (by simp) ho
      simp only [Act.owner] at ho
      subst ho
      have hp := (ninv_run p as).pull
      simp only [Net.step, ih.1, Bool.false_eq_true, if_false]
      cases hl : (pushes p as).getLast? with
      | none =>
        have : (after p as).server.pull () none = none := by
          rw [show (after p as).server.pull () none = _ from hp, show ((Net.init p).run as).2.getLast? = none from hl]
          rfl
        rw [this]
        refine ⟨ih.1, ?_⟩
        rcases ih.2 with hv | ⟨v, x, h1, h2, h3⟩
        · exact Or.inl hv
        · exact Or.inr ⟨v, x, h1, hpre v x h2, h3⟩
      | some x =>
        have : (after p as).server.pull () none = some (x.2.2, (pushes p as).length) := by
          rw [show (after p as).server.pull () none = _ from hp, show ((Net.init p).run as).2.getLast? = some x from hl]
          rfl
        rw [this]
        simp only
        split
        · refine ⟨by simp [Net.setClient], Or.inr ⟨(pushes p as).length - 1, x, ?_, ?_, ?_⟩⟩
          · have hne : pushes p as ≠ [] := fun hc => by rw [hc] at hl; cases hl
            have : 0 < (pushes p as).length := List.length_pos_iff.mpr hne
            simp only [Net.setClient, ↓reduceIte, Option.some.injEq]
            omega
          · exact hpre _ x (by rw [← List.getLast?_eq_getElem?]; exact hl)
          · simp [Net.setClient]
        · refine ⟨ih.1, ?_⟩
          rcases ih.2 with hv | ⟨v, y, h1, h2, h3⟩
          · exact Or.inl hv
          · exact Or.inr ⟨v, y, h1, hpre v y h2, h3⟩
    · rw [Net.step_other _ _ _ ho]
      refine ⟨ih.1, ?_⟩
      rcases ih.2 with hv | ⟨v, y, h1, h2, h3⟩
      · exact Or.inl hv
      · exact Or.inr ⟨v, y, h1, hpre v y h2, h3⟩

/-- C226: at every moment a sampler holds the initial model, without a version, or exactly the parameters of one accepted push, under its number: never a mixture
and never something no learner pushed. -/
theorem C226_pushed (p : Nat → ν) (as : List (Act ν)) (i : Nat) (h : OnlyPulls i as) :
    (((after p as).client i).version = none ∧ ((after p as).client i).params = p i) ∨
      ∃ v e, ((after p as).client i).version = some (v + 1) ∧ (pushes p as)[v]? = some e ∧ ((after p as).client i).params = e.2.2 :=
  (sampler_inv p i as h).2

/-- C226: between two synchronisations a sampler acts with the model that was the newest one at its last synchronisation: if that was after `xs` and some push had
been accepted by then, it holds the parameters pushed last in `xs`, and it lags behind the server by the pushes accepted since. -/
theorem C226_lag (p : Nat → ν) (xs ys : List (Act ν)) (i : Nat) (hx : OnlyPulls i xs) (hy : ∀ a ∈ ys, a.owner ≠ i) (e : Nat × Option Nat × ν)
    (he : (pushes p xs).getLast? = some e) :
    (after p (xs ++ .pull i :: ys)).client i = ⟨some (pushes p xs).length, e.2.2, false⟩ ∧
    ∃ later, pushes p (xs ++ .pull i :: ys) = pushes p xs ++ later ∧
      (after p (xs ++ .pull i :: ys)).server.pull () none = ((pushes p xs ++ later).getLast?.map fun e => (e.2.2, (pushes p xs).length + later.length)) := by
  have h1 : after p (xs ++ .pull i :: ys) = (((after p xs).step (.pull i)).1.run ys).1 := by
    simp only [after]
    rw [Net.run_append]
    rfl
  have h2 : pushes p (xs ++ .pull i :: ys) = pushes p xs ++ (((after p xs).step (.pull i)).1.run ys).2 := by
    simp only [pushes, after]
    rw [Net.run_append]
    simp [Net.run, Net.event]
  refine ⟨?_, _, h2, ?_⟩
  · rw [h1, Net.run_other _ ys i hy]
    have hinv := sampler_inv p i xs hx
    have hp := (ninv_run p xs).pull
    have hpull : (after p xs).server.pull () none = some (e.2.2, (pushes p xs).length) := by
      rw [show (after p xs).server.pull () none = _ from hp, show ((Net.init p).run xs).2.getLast? = some e from he]
      rfl
    have hb := C26_bound p xs i
    simp only [Net.step, hinv.1, Bool.false_eq_true, if_false, hpull]
    split
    · simp [Net.setClient]
    · rename_i hc
      simp only [not_or, Nat.not_lt] at hc
      rcases hinv.2 with hv | ⟨v, y, hv, hy', hz⟩
      · exact absurd hv.1 hc.1
      · rw [hv] at hc hb
        simp only [Option.getD_some] at hc hb
        have hl : (pushes p xs).length = v + 1 := Nat.le_antisymm hc.2 hb
        have : e = y := by
          rw [List.getLast?_eq_getElem?, hl] at he
          simp only [Nat.add_sub_cancel] at he
          rw [he] at hy'
          exact Option.some.inj hy'
        have hcl : (after p xs).client i = ⟨((after p xs).client i).version, ((after p xs).client i).params, ((after p xs).client i).pulling⟩ := rfl
        rw [hcl, hv, hz, hinv.1, hl, this]
  · rw [C26_newest, h2]
    simp

/-- Non-vacuity of C226: client 2 samples, clients 0 and 1 learn; it pulls after two pushes and lags by one at the end. -/
example : OnlyPulls 2 ([.train 0 50, .push 0 true, .pull 2, .train 0 51, .push 0 true, .pull 2, .train 0 52, .push 0 true] : List (Act Nat)) ∧
    ((after (fun i => i) ([.train 0 50, .push 0 true, .pull 2, .train 0 51, .push 0 true, .pull 2, .train 0 52, .push 0 true] : List (Act Nat))).client 2).version
      = some 2 := by
  refine ⟨?_, by decide +kernel⟩
  intro a ha ho
  simp only [List.mem_cons, List.not_mem_nil, or_false] at ha
  rcases ha with rfl | rfl | rfl | rfl | rfl | rfl | rfl | rfl <;> simp [Act.owner] at ho ⊢

end Machin.Server
