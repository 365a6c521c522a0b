import Mathlib.Data.List.Basic
import Mathlib.Data.List.Nodup
import Mathlib.Data.List.Induction
import Mathlib.Tactic.Tauto
import Verif.Server.Spec

/-! # Helper lemmas on the ordered server -/

namespace Machin.Server

open Spec

variable {κ V ν : Type} [DecidableEq κ] [DecidableEq V]

theorem run_append (s : Ordered κ V ν) (qs rs : List (Req κ V ν)) :
    s.run (qs ++ rs) = (((s.run qs).1.run rs).1, (s.run qs).2 ++ ((s.run qs).1.run rs).2) := by
  induction qs generalizing s with
  | nil => simp [Ordered.run]
  | cons q qs ih => simp [Ordered.run, ih]

theorem run_snoc (s : Ordered κ V ν) (qs : List (Req κ V ν)) (q : Req κ V ν) :
    s.run (qs ++ [q]) = (((s.run qs).1.serve q).1, (s.run qs).2 ++ [(q, ((s.run qs).1.serve q).2)]) := by
  rw [run_append]; rfl

omit [DecidableEq V] in
theorem accepted_append (key : κ) (tr tr' : List (Req κ V ν × Resp V ν)) :
    accepted key (tr ++ tr') = accepted key tr ++ accepted key tr' := by
  induction tr with
  | nil => rfl
  | cons a tr ih =>
    rcases a with ⟨⟨k, x, v, p⟩ | ⟨k, v⟩, ⟨_ | _⟩ | r⟩
    all_goals simp only [List.cons_append, accepted, ih]
    split <;> simp

theorem push_depth (s : Ordered κ V ν) (k : κ) (x : ν) (v p : V) : (s.push k x v p).1.depth = s.depth := by
  unfold Ordered.push; split <;> rfl

theorem serve_depth (s : Ordered κ V ν) (q : Req κ V ν) : (s.serve q).1.depth = s.depth := by
  cases q <;> simp [Ordered.serve, push_depth]

theorem run_depth (s : Ordered κ V ν) (qs : List (Req κ V ν)) : (s.run qs).1.depth = s.depth := by
  induction qs generalizing s with
  | nil => rfl
  | cons q qs ih => simp [Ordered.run, ih, serve_depth]

theorem push_other (s : Ordered κ V ν) {k key : κ} (h : key ≠ k) (x : ν) (v p : V) :
    (s.push k x v p).1.storage.get? key = s.storage.get? key := by
  unfold Ordered.push
  split <;> simp [PyDict.get?_set_ne _ h]

/-- The shape of the stored versions, when versions are only reused in place. -/
def Inv' (s : Ordered κ V ν) (key : κ) (acc : List (V × ν × V)) : Prop :=
  match s.storage.get? key with
  | none => acc = []
  | some ref => ref ≠ [] ∧ newest? ref = (acc.map (·.1)).getLast? ∧ (∀ v ∈ ref.keys, v ∈ acc.map (·.1))

theorem newest?_eq_some {ref : PyDict V ν} {v : V} : newest? ref = some v ↔ ref.keys.getLast? = some v := by
  simp [newest?, PyDict.keys, List.getLast?_map]

theorem tail_getLast? {α : Type} {l : List α} (h : 1 < l.length) : l.tail.getLast? = l.getLast? := by
  match l, h with
  | _ :: _ :: _, _ => simp [List.getLast?_cons_cons]

theorem Inv'.step {s : Ordered κ V ν} {key : κ} {acc : List (V × ν × V)} (h : Inv' s key acc) (q : Req κ V ν)
    (hfresh : ∀ a, accepted key [(q, (s.serve q).2)] = [a] → a.1 = a.2.2 ∨ a.1 ∉ acc.map (·.1)) :
    Inv' (s.serve q).1 key (acc ++ accepted key [(q, (s.serve q).2)]) := by
  rcases q with ⟨k, x, v, p⟩ | ⟨k, v⟩
  swap
  · simpa [Ordered.serve, accepted] using h
  by_cases hk : k = key
  swap
  · have h1 : accepted key [((Req.push k x v p : Req κ V ν), (s.serve (.push k x v p)).2)] = [] := by
      rcases hb : (s.push k x v p).2 <;> simp [Ordered.serve, hb, accepted, hk]
    rw [h1, List.append_nil]
    unfold Inv'
    simp only [Ordered.serve]
    rw [push_other s (Ne.symm hk)]
    exact h
  subst hk
  unfold Inv' at h
  simp only [Ordered.serve, Ordered.push] at hfresh ⊢
  rcases hg : s.storage.get? k with _ | ref
  · simp only [hg] at h hfresh ⊢
    subst h
    simp [Inv', PyDict.get?_set_self, accepted, newest?, PyDict.keys]
  · simp only [hg] at h hfresh ⊢
    obtain ⟨hne, hnew, hsub⟩ := h
    unfold Inv'
    simp only [PyDict.get?_set_self]
    by_cases hok : newest? ref = some p
    · simp only [hok, decide_true, if_true, accepted] at hfresh ⊢
      have hf := hfresh (v, x, p) rfl
      simp only at hf
      have hlast : newest? (ref.set v x) = some v ∧ ref.set v x ≠ [] ∧
          ∀ w ∈ (ref.set v x).keys, w = v ∨ w ∈ ref.keys := by
        by_cases hv : v ∈ ref.keys
        · have hvp : v = p := by
            rcases hf with hf | hf
            · exact hf
            · exact absurd (hsub v hv) hf
          have hk := PyDict.keys_set_of_mem hv x
          refine ⟨?_, ?_, ?_⟩
          · rw [newest?_eq_some, hk, ← newest?_eq_some, hok, hvp]
          · intro h0
            rw [h0] at hk
            rw [← hk] at hv
            simp [PyDict.keys] at hv
          · rw [hk]; tauto
        · rw [PyDict.set_of_not_mem hv]
          refine ⟨by simp [newest?], by simp, ?_⟩
          intro w hw
          simpa [PyDict.keys, or_comm] using hw
      obtain ⟨h1, h2, h3⟩ := hlast
      have h4 : ∀ w ∈ (ref.set v x).keys, w ∈ (acc ++ [(v, x, p)]).map (·.1) := by
        intro w hw
        rcases h3 w hw with rfl | hw
        · simp
        · have := hsub w hw
          simp only [List.map_append, List.mem_append]
          exact .inl this
      have h5 : (List.map (fun x : V × ν × V => x.1) (acc ++ [(v, x, p)])).getLast? = some v := by simp
      split
      · rename_i hlen
        refine ⟨?_, ?_, ?_⟩
        · intro h0
          have := congrArg List.length h0
          simp at this
          omega
        · rw [h5, ← h1]
          unfold newest?
          rw [tail_getLast? (by omega)]
        · intro w hw
          refine h4 w ?_
          simp only [PyDict.keys, List.map_tail] at hw
          exact List.mem_of_mem_tail hw
      · exact ⟨h2, h1.trans h5.symm, h4⟩
    · simp only [hok, decide_false, accepted, List.append_nil, if_false]
      split
      · rename_i hlen
        refine ⟨?_, ?_, ?_⟩
        · intro h0
          have := congrArg List.length h0
          simp at this
          omega
        · rw [← hnew]
          unfold newest?
          rw [tail_getLast? (by omega)]
        · intro w hw
          refine hsub w ?_
          simp only [PyDict.keys, List.map_tail] at hw
          exact List.mem_of_mem_tail hw
      · exact ⟨hne, hnew, hsub⟩

theorem accepted_single (key : κ) (e : Req κ V ν × Resp V ν) :
    accepted key [e] = [] ∨ ∃ a, accepted key [e] = [a] := by
  rcases e with ⟨⟨k, x, v, p⟩ | ⟨k, v⟩, ⟨_ | _⟩ | r⟩
  all_goals try (left; rfl)
  by_cases h : k = key <;> simp [accepted, h]

omit [DecidableEq V] in
theorem NoReuse'.left {key : κ} {tr tr' : List (Req κ V ν × Resp V ν)} (h : NoReuse' key (tr ++ tr')) :
    NoReuse' key tr := by
  intro pre a post he
  refine h pre a (post ++ accepted key tr') ?_
  rw [accepted_append, he]; simp

theorem inv'_run (depth : Nat) (key : κ) (qs : List (Req κ V ν))
    (h : NoReuse' key ((⟨[], depth⟩ : Ordered κ V ν).run qs).2) :
    Inv' ((⟨[], depth⟩ : Ordered κ V ν).run qs).1 key (accepted key ((⟨[], depth⟩ : Ordered κ V ν).run qs).2) := by
  induction qs using List.reverseRecOn with
  | nil => simp [Ordered.run, Inv', accepted]
  | append_singleton qs q ih =>
    rw [run_snoc] at h ⊢
    simp only at h ⊢
    rw [accepted_append]
    refine (ih (NoReuse'.left h)).step q ?_
    intro a ha
    have := h (accepted key ((⟨[], depth⟩ : Ordered κ V ν).run qs).2) a [] (by rw [accepted_append, ha])
    exact this

omit [DecidableEq V] in
theorem NoReuse.noReuse' {key : κ} {tr : List (Req κ V ν × Resp V ν)} (h : NoReuse key tr) : NoReuse' key tr := by
  intro pre a post he
  right
  unfold NoReuse versions at h
  rw [he, List.map_append, List.map_cons] at h
  have := List.nodup_append.mp h
  intro hm
  exact this.2.2 a.1 hm a.1 (by simp) rfl

omit [DecidableEq V] in
theorem NoReuse.left {key : κ} {tr tr' : List (Req κ V ν × Resp V ν)} (h : NoReuse key (tr ++ tr')) :
    NoReuse key tr := by
  unfold NoReuse versions at h ⊢
  rw [accepted_append, List.map_append] at h
  exact (List.nodup_append.mp h).1

/-! ### Retained versions -/

theorem lastN_all {α : Type} {n : Nat} {l : List α} (h : l.length ≤ n) : lastN n l = l := by
  simp [lastN, Nat.sub_eq_zero_of_le h]

theorem length_lastN {α : Type} (n : Nat) (l : List α) : (lastN n l).length = min n l.length := by
  simp [lastN]; omega

theorem lastN_snoc {α : Type} (n : Nat) (l : List α) (a : α) :
    lastN (n + 1) (l ++ [a]) =
      if (lastN (n + 1) l).length = n + 1 then (lastN (n + 1) l ++ [a]).tail else lastN (n + 1) l ++ [a] := by
  rw [length_lastN]
  unfold lastN
  by_cases h : n + 1 ≤ l.length
  · rw [if_pos (by omega)]
    have h1 : (l ++ [a]).length - (n + 1) = (l.length - (n + 1)) + 1 := by simp; omega
    rw [h1]
    have h2 : l.length - (n + 1) ≤ l.length := by omega
    rw [← List.drop_append_of_le_length h2, List.tail_drop]
  · rw [if_neg (by omega)]
    have h1 : (l ++ [a]).length - (n + 1) = 0 := by simp; omega
    have h2 : l.length - (n + 1) = 0 := by omega
    rw [h1, h2]; rfl

/-- The stored versions are the last `depth + 1` accepted ones. -/
def Inv (s : Ordered κ V ν) (key : κ) (acc : List (V × ν × V)) : Prop :=
  s.storage.get? key =
    if acc = [] then none else some (lastN (s.depth + 1) (acc.map fun a => (a.1, a.2.1)))

theorem Inv.step {s : Ordered κ V ν} {key : κ} {acc : List (V × ν × V)} (h : Inv s key acc) (q : Req κ V ν)
    (hfresh : ∀ a, accepted key [(q, (s.serve q).2)] = [a] → a.1 ∉ acc.map (·.1)) :
    Inv (s.serve q).1 key (acc ++ accepted key [(q, (s.serve q).2)]) := by
  unfold Inv at h ⊢
  rw [serve_depth]
  rcases q with ⟨k, x, v, p⟩ | ⟨k, v⟩
  swap
  · simpa [Ordered.serve, accepted] using h
  by_cases hk : k = key
  swap
  · have h1 : accepted key [((Req.push k x v p : Req κ V ν), (s.serve (.push k x v p)).2)] = [] := by
      rcases hb : (s.push k x v p).2 <;> simp [Ordered.serve, hb, accepted, hk]
    rw [h1, List.append_nil]
    simp only [Ordered.serve]
    rw [push_other s (Ne.symm hk)]
    exact h
  subst hk
  simp only [Ordered.serve, Ordered.push] at hfresh ⊢
  by_cases hacc : acc = []
  · rw [if_pos hacc] at h
    simp only [h, accepted, PyDict.get?_set_self, hacc]
    simp [lastN]
  · rw [if_neg hacc] at h
    simp only [h] at hfresh ⊢
    simp only [PyDict.get?_set_self]
    set l := acc.map (fun a => (a.1, a.2.1)) with hl
    by_cases hok : newest? (lastN (s.depth + 1) l) = some p
    · simp only [hok, decide_true, if_true, accepted] at hfresh ⊢
      have hf := hfresh (v, x, p) rfl
      simp only at hf
      have hv : v ∉ PyDict.keys (lastN (s.depth + 1) l) := by
        intro hv
        apply hf
        have : v ∈ PyDict.keys l := by
          simp only [PyDict.keys, List.mem_map] at hv ⊢
          obtain ⟨a, ha, rfl⟩ := hv
          exact ⟨a, List.mem_of_mem_drop ha, rfl⟩
        rw [hl] at this
        simpa [PyDict.keys] using this
      rw [PyDict.set_of_not_mem hv]
      simp only [List.append_eq_nil_iff, hacc, false_and, if_false, List.map_append, List.map_cons, List.map_nil, ← hl]
      rw [lastN_snoc]
      have hle := length_lastN (s.depth + 1) l
      by_cases hful : (lastN (s.depth + 1) l).length = s.depth + 1
      · rw [if_pos hful, if_pos (by simp; omega)]
      · rw [if_neg hful, if_neg (by simp; omega)]
    · simp only [hok, decide_false, accepted, List.append_nil, if_false, hacc]
      have hle := length_lastN (s.depth + 1) l
      rw [if_neg (by simp; omega)]

theorem inv_run (depth : Nat) (key : κ) (qs : List (Req κ V ν))
    (h : NoReuse key ((⟨[], depth⟩ : Ordered κ V ν).run qs).2) :
    Inv ((⟨[], depth⟩ : Ordered κ V ν).run qs).1 key (accepted key ((⟨[], depth⟩ : Ordered κ V ν).run qs).2) := by
  induction qs using List.reverseRecOn with
  | nil => simp [Ordered.run, Inv, accepted]
  | append_singleton qs q ih =>
    rw [run_snoc] at h ⊢
    simp only at h ⊢
    rw [accepted_append]
    refine (ih (NoReuse.left h)).step q ?_
    intro a ha
    unfold NoReuse versions at h
    rw [accepted_append, List.map_append, ha] at h
    intro hm
    exact (List.nodup_append.mp h).2.2 a.1 hm a.1 (by simp) rfl

theorem get?_of_nodup_mem {l : PyDict V ν} (h : l.keys.Nodup) (v : V) (x : ν) :
    l.get? v = some x ↔ (v, x) ∈ l := ⟨PyDict.mem_of_get?, PyDict.get?_of_mem h⟩

end Machin.Server
