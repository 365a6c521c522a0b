import Verif.Server.Lemmas

/-! # Helper lemmas on the model server -/

namespace Machin.Server

variable {ν : Type}

theorem Net.run_snoc (n : Net ν) (as : List (Act ν)) (a : Act ν) :
    n.run (as ++ [a]) = (((n.run as).1.step a).1, (n.run as).2 ++ (n.run as).1.event a) := by
  induction as generalizing n with
  | nil => simp [Net.run]
  | cons b as ih => simp [Net.run, ih]

theorem Net.base_snoc (n : Net ν) (b : Nat → ν) (as : List (Act ν)) (a : Act ν) :
    n.base b (as ++ [a]) = fun i =>
      if (((n.run as).1.step a).1.client i).version = ((n.run as).1.client i).version then n.base b as i
      else (((n.run as).1.step a).1.client i).params := by
  induction as generalizing n b with
  | nil => simp only [Net.run, Net.base, List.nil_append]; funext i; congr
  | cons c as ih => simp only [Net.run, Net.base, List.cons_append, ih]; funext i; congr

/-- What the server and the clients hold after the accepted pushes `acc`. -/
structure NInv (n : Net ν) (base : Nat → ν) (acc : List (Nat × Option Nat × ν)) : Prop where
  depth : n.server.depth = 1
  empty : acc = [] → n.server.storage.get? () = none
  stored : ∀ e, acc.getLast? = some e → ∃ ref, n.server.storage.get? () = some ref ∧ newest? ref = some acc.length ∧
    ref.get? acc.length = some e.2.2 ∧ (∀ v ∈ ref.keys, v ≤ acc.length) ∧ ref.length ≤ 2
  bound : ∀ i, (n.client i).version.getD 0 ≤ acc.length
  pulling : ∀ i, (n.client i).pulling = true → (n.client i).version.getD 0 < acc.length
  based : ∀ k (e : Nat × Option Nat × ν), acc[k]? = some e → e.2.1.getD 0 = k
  base : ∀ i v, (n.client i).version = some (v + 1) → ∃ e, acc[v]? = some e ∧ base i = e.2.2

theorem NInv.pull {n : Net ν} {b : Nat → ν} {acc : List (Nat × Option Nat × ν)} (h : NInv n b acc) :
    n.server.pull () none = acc.getLast?.map fun e => (e.2.2, acc.length) := by
  unfold Ordered.pull
  rcases hl : acc.getLast? with _ | e
  · rw [List.getLast?_eq_none_iff] at hl
    simp [h.empty hl]
  · obtain ⟨ref, h1, h2, h3, -⟩ := h.stored e hl
    simp [h1, h2, h3]

/-- Pushing on top of the newest version. -/
theorem push_newest {s : Ordered Unit Nat ν} {ref : PyDict Nat ν} {N : Nat} (hd : s.depth = 1)
    (hr : s.storage.get? () = some ref) (hn : newest? ref = some N) (hb : ∀ v ∈ ref.keys, v ≤ N) (hlen' : ref.length ≤ 2) (x : ν) :
    (s.push () x (N + 1) N).2 = true ∧ ∃ ref', (s.push () x (N + 1) N).1.storage.get? () = some ref' ∧
      newest? ref' = some (N + 1) ∧ ref'.get? (N + 1) = some x ∧ (∀ v ∈ ref'.keys, v ≤ N + 1) ∧ ref'.length ≤ 2 := by
  have hv : N + 1 ∉ ref.keys := fun h => by have := hb _ h; omega
  unfold Ordered.push
  simp only [hr, hn, decide_true, if_true, true_and, PyDict.get?_set_self, PyDict.set_of_not_mem hv]
  have hg : PyDict.get? (ref ++ [(N + 1, x)]) (N + 1) = some x := by
    rw [PyDict.get?_append, (PyDict.get?_eq_none_iff _ _).mpr hv]; simp [PyDict.get?_cons]
  split
  · rename_i hlen
    rw [hd] at hlen
    refine ⟨_, rfl, ?_, ?_, ?_, by simp; omega⟩
    · unfold newest?
      rw [tail_getLast? (by omega)]
      simp
    · match ref, hlen with
      | a :: b :: r, _ =>
        have ha : a.1 ≠ N + 1 := by
          intro h
          exact hv (by simp [PyDict.keys, h])
        simp only [List.cons_append, List.tail_cons] at hg ⊢
        rw [PyDict.get?_cons] at hg
        simpa [ha] using hg
    · intro v hv
      simp only [PyDict.keys, List.map_tail] at hv
      have := List.mem_of_mem_tail hv
      simp only [List.map_append, List.mem_append, List.map_cons, List.map_nil, List.mem_singleton] at this
      rcases this with h | h
      · have := hb v h; omega
      · omega
  · rename_i hlen
    refine ⟨_, rfl, by simp [newest?], hg, ?_, by rw [hd] at hlen; omega⟩
    intro v hv
    simp only [PyDict.keys, List.map_append, List.mem_append, List.map_cons, List.map_nil, List.mem_singleton] at hv
    rcases hv with h | h
    · have := hb v h; omega
    · omega

/-- A rejected push changes nothing (with at most two retained versions). -/
theorem push_stale {s : Ordered Unit Nat ν} {ref : PyDict Nat ν} {N p : Nat} (hd : s.depth = 1)
    (hr : s.storage.get? () = some ref) (hn : newest? ref = some N) (hp : p ≠ N) (hlen : ref.length ≤ 2) (x : ν) :
    (s.push () x (p + 1) p).2 = false ∧ (s.push () x (p + 1) p).1.storage.get? () = some ref := by
  have hne : ¬ newest? ref = some p := by rw [hn]; simpa using Ne.symm hp
  unfold Ordered.push
  simp only [hr, hne, decide_false, if_false, true_and, PyDict.get?_set_self]
  rw [if_neg (by omega)]

theorem push_empty {s : Ordered Unit Nat ν} (hr : s.storage.get? () = none) (x : ν) (v p : Nat) :
    (s.push () x v p).2 = true ∧ (s.push () x v p).1.storage.get? () = some [(v, x)] := by
  unfold Ordered.push
  simp [hr, PyDict.get?_set_self]

theorem getD_ne {c : Option Nat} {v : Nat} (h : c.getD 0 < v) : c ≠ some v := by
  rintro rfl; simp at h

theorem NInv.step {n : Net ν} {b : Nat → ν} {acc : List (Nat × Option Nat × ν)} (h : NInv n b acc) (a : Act ν) :
    NInv (n.step a).1
      (fun i => if ((n.step a).1.client i).version = (n.client i).version then b i else ((n.step a).1.client i).params)
      (acc ++ n.event a) := by
  cases a with
  | train i p =>
    simp only [Net.step, Net.event, List.append_nil]
    split
    · simpa using h
    · rename_i hp
      have hc : ∀ j, ((n.setClient i { n.client i with params := p }).client j).version = (n.client j).version := by
        intro j
        simp only [Net.setClient]
        split
        · rename_i hj; subst hj; rfl
        · rfl
      refine ⟨h.depth, h.empty, h.stored, fun j => by rw [hc]; exact h.bound j, ?_, h.based, ?_⟩
      · intro j hj
        rw [hc]
        refine h.pulling j ?_
        simp only [Net.setClient] at hj
        split at hj
        · rename_i hji; subst hji; exact hj
        · exact hj
      · intro j v hv
        rw [hc] at hv
        obtain ⟨e, h1, h2⟩ := h.base j v hv
        exact ⟨e, h1, by simp [hc, h2]⟩
  | push i bf =>
    simp only [Net.event]
    by_cases hp : (n.client i).pulling = true
    · simp only [Net.step, hp, if_true]
      simpa using h
    · set v := (n.client i).version.getD 0 with hv
      have hacc : (n.server.push () (n.client i).params (v + 1) v).2 = true ↔ v = acc.length := by
        rcases hl : acc.getLast? with _ | e
        · rw [List.getLast?_eq_none_iff] at hl
          have hb := h.bound i
          rw [← hv, hl] at hb
          simp [push_empty (h.empty hl), hl]
          simpa using hb
        · obtain ⟨ref, h1, h2, h3, h4, h5⟩ := h.stored e hl
          by_cases hvn : v = acc.length
          · rw [hvn]
            simp [push_newest h.depth h1 h2 h4 h5]
          · simp [push_stale h.depth h1 h2 hvn h5, hvn]
      by_cases hr : (n.server.push () (n.client i).params (v + 1) v).2 = true
      · have hvn := hacc.mp hr
        have hst : n.step (.push i bf) = ({ n with server := (n.server.push () (n.client i).params (v + 1) v).1 }.setClient i
            { n.client i with version := some (v + 1) }, some true) := by
          simp only [Net.step, hp, ← hv, hr, if_true]; simp
        rw [hst]
        simp only [if_true]
        have hstore : ∃ ref', (n.server.push () (n.client i).params (v + 1) v).1.storage.get? () = some ref' ∧
            newest? ref' = some (v + 1) ∧ ref'.get? (v + 1) = some (n.client i).params ∧ (∀ w ∈ ref'.keys, w ≤ v + 1) ∧
            ref'.length ≤ 2 := by
          rcases hl : acc.getLast? with _ | e
          · rw [List.getLast?_eq_none_iff] at hl
            refine ⟨_, (push_empty (h.empty hl) _ _ _).2, ?_⟩
            simp [newest?, PyDict.get?_cons, PyDict.keys]
          · obtain ⟨ref, h1, h2, h3, h4, h5⟩ := h.stored e hl
            rw [← hvn] at h2 h4
            exact (push_newest h.depth h1 h2 h4 h5 _).2
        refine ⟨by simp [Net.setClient, push_depth, h.depth], by simp, ?_, ?_, ?_, ?_, ?_⟩
        · intro e he
          simp only [List.getLast?_append, List.getLast?_singleton, Option.some_or, Option.some.injEq] at he
          subst he
          simpa [Net.setClient, hvn] using hstore
        · intro j
          simp only [Net.setClient, List.length_append, List.length_singleton]
          split
          · simp [hvn]
          · have := h.bound j; omega
        · intro j hj
          simp only [Net.setClient, List.length_append, List.length_singleton] at hj ⊢
          split at hj
          · exact absurd hj hp
          · rename_i hji
            rw [if_neg hji]
            have := h.pulling j hj; omega
        · intro k e he
          rcases Nat.lt_trichotomy k acc.length with hk | hk | hk
          · rw [List.getElem?_append_left hk] at he
            exact h.based k e he
          · subst hk
            rw [List.getElem?_append_right (Nat.le_refl _)] at he
            simp only [Nat.sub_self, List.getElem?_cons_zero, Option.some.injEq] at he
            subst he
            exact hvn
          · rw [List.getElem?_eq_none (by simp; omega)] at he
            cases he
        · intro j w hw
          simp only [Net.setClient] at hw ⊢
          split at hw
          · rename_i hj
            subst hj
            simp only [Option.some.injEq, Nat.add_right_cancel_iff] at hw
            subst hw
            refine ⟨(j, (n.client j).version, (n.client j).params), by simp [hvn], ?_⟩
            have : ¬ some (v + 1) = (n.client j).version := by
              intro h0; rw [← h0] at hv; simp at hv
            simp [this]
          · rename_i hj
            obtain ⟨e, h1, h2⟩ := h.base j w hw
            refine ⟨e, ?_, by simp [hj, h2]⟩
            rw [List.getElem?_append_left (List.getElem?_eq_some_iff.mp h1).1]
            exact h1
      · have hvn : v ≠ acc.length := fun h => hr (hacc.mpr h)
        have hlt : v < acc.length := by have := h.bound i; omega
        have hst : n.step (.push i bf) = ({ n with server := (n.server.push () (n.client i).params (v + 1) v).1 }.setClient i
            { n.client i with version := some v, pulling := bf }, some false) := by
          simp only [Net.step, hp, ← hv, hr, if_false]; simp
        rw [hst]
        simp only [Option.some.injEq, Bool.false_eq_true, if_false, List.append_nil]
        refine ⟨by simp [Net.setClient, push_depth, h.depth], ?_, ?_, ?_, ?_, h.based, ?_⟩
        · intro h0; rw [h0] at hlt; simp at hlt
        · intro e he
          obtain ⟨ref, h1, h2, h3, h4, h5⟩ := h.stored e he
          exact ⟨ref, by simpa [Net.setClient] using (push_stale h.depth h1 h2 hvn h5 _).2, h2, h3, h4, h5⟩
        · intro j
          simp only [Net.setClient]
          split
          · simp; omega
          · exact h.bound j
        · intro j hj
          simp only [Net.setClient] at hj ⊢
          split
          · simpa using hlt
          · rename_i hji
            rw [if_neg hji] at hj
            exact h.pulling j hj
        · intro j w hw
          simp only [Net.setClient] at hw ⊢
          split at hw
          · rename_i hj
            subst hj
            simp only [Option.some.injEq] at hw
            have hvw : (n.client j).version = some (w + 1) := by
              rcases hc : (n.client j).version with _ | u
              · rw [hc] at hv; simp only [Option.getD_none] at hv; omega
              · rw [hc] at hv; simp only [Option.getD_some] at hv; rw [← hw, hv]
            obtain ⟨e, h1, h2⟩ := h.base j w hvw
            exact ⟨e, h1, by simp [hvw, hw, h2]⟩
          · rename_i hj
            obtain ⟨e, h1, h2⟩ := h.base j w hw
            exact ⟨e, h1, by simp [hj, h2]⟩
  | finish i =>
    simp only [Net.event, List.append_nil]
    by_cases hp : (n.client i).pulling = true
    · have hlt := h.pulling i hp
      obtain ⟨e, he⟩ : ∃ e, acc.getLast? = some e := by
        rcases hl : acc.getLast? with _ | e
        · rw [List.getLast?_eq_none_iff] at hl; rw [hl] at hlt; simp at hlt
        · exact ⟨e, rfl⟩
      have hst : n.step (.finish i) = (n.setClient i ⟨some acc.length, e.2.2, false⟩, none) := by
        simp only [Net.step, hp, if_true, h.pull, he, Option.map_some]
      rw [hst]
      refine ⟨h.depth, h.empty, h.stored, ?_, ?_, h.based, ?_⟩
      · intro j
        simp only [Net.setClient]
        split
        · simp
        · exact h.bound j
      · intro j hj
        simp only [Net.setClient] at hj ⊢
        split at hj
        · cases hj
        · rename_i hji; rw [if_neg hji]; exact h.pulling j hj
      · intro j w hw
        simp only [Net.setClient] at hw ⊢
        split at hw
        · rename_i hj
          subst hj
          simp only [Option.some.injEq] at hw
          refine ⟨e, ?_, ?_⟩
          · rw [List.getLast?_eq_getElem?] at he
            rw [← he]; congr 1; omega
          · have : ¬ some acc.length = (n.client j).version := fun h0 => by
              rw [← h0] at hlt; simp at hlt
            simp [this]
        · rename_i hj
          obtain ⟨e, h1, h2⟩ := h.base j w hw
          exact ⟨e, h1, by simp [hj, h2]⟩
    · simp only [Net.step, hp]
      simpa using h
  | pull i =>
    simp only [Net.event, List.append_nil]
    by_cases hp : (n.client i).pulling = true
    · simp only [Net.step, hp, if_true]
      simpa using h
    · rcases he : acc.getLast? with _ | e
      · simp only [Net.step, hp, h.pull, he, Option.map_none]
        simpa using h
      · by_cases hc : (n.client i).version = none ∨ (n.client i).version.getD 0 < acc.length
        · have hst : n.step (.pull i) = (n.setClient i { n.client i with version := some acc.length, params := e.2.2 }, none) := by
            simp only [Net.step, hp, h.pull, he, Option.map_some, hc, if_true]; simp
          rw [hst]
          refine ⟨h.depth, h.empty, h.stored, ?_, ?_, h.based, ?_⟩
          · intro j
            simp only [Net.setClient]
            split
            · simp
            · exact h.bound j
          · intro j hj
            simp only [Net.setClient] at hj ⊢
            split at hj
            · exact absurd hj hp
            · rename_i hji; rw [if_neg hji]; exact h.pulling j hj
          · intro j w hw
            simp only [Net.setClient] at hw ⊢
            split at hw
            · rename_i hj
              subst hj
              simp only [Option.some.injEq] at hw
              refine ⟨e, ?_, ?_⟩
              · rw [List.getLast?_eq_getElem?] at he
                rw [← he]; congr 1; omega
              · have : ¬ some acc.length = (n.client j).version := fun h0 => by
                  rw [← h0] at hc; simp at hc
                simp [this]
            · rename_i hj
              obtain ⟨e, h1, h2⟩ := h.base j w hw
              exact ⟨e, h1, by simp [hj, h2]⟩
        · have hst : n.step (.pull i) = (n, none) := by
            simp only [Net.step, hp, h.pull, he, Option.map_some, hc, if_false]; simp
          rw [hst]
          simpa using h

theorem ninv_run (p : Nat → ν) (as : List (Act ν)) :
    NInv ((Net.init p).run as).1 ((Net.init p).base p as) ((Net.init p).run as).2 := by
  induction as using List.reverseRecOn with
  | nil =>
    refine ⟨rfl, fun _ => rfl, ?_, ?_, ?_, ?_, ?_⟩
    · intro e he; cases he
    · intro i; simp [Net.run, Net.init]
    · intro i hi; cases hi
    · intro k e he; cases he
    · intro i v hv; cases hv
  | append_singleton as a ih =>
    rw [Net.run_snoc, Net.base_snoc]
    exact ih.step a

end Machin.Server
