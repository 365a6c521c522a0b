import Verif.Server.Net

/-! # Properties of the ordered server and of the model server (C24, C25, C26) -/

namespace Machin.Server

open Spec

variable {κ V ν : Type} [DecidableEq κ] [DecidableEq V]

/-- The empty server. -/
def server (κ V ν : Type) (depth : Nat) : Ordered κ V ν := ⟨[], depth⟩

/-! ## C24 -/

/-- After any sequence of requests, a push is accepted exactly if the key is new or `prev_version` is the version of the
push accepted last for this key. -/
theorem C24_accept (depth : Nat) (key : κ) (qs : List (Req κ V ν)) (x : ν) (v p : V)
    (h : NoReuse' key ((server κ V ν depth).run qs).2) :
    (((server κ V ν depth).run qs).1.push key x v p).2 = true ↔
      versions key ((server κ V ν depth).run qs).2 = [] ∨
        (versions key ((server κ V ν depth).run qs).2).getLast? = some p := by
  have hinv := inv'_run depth key qs h
  unfold Inv' at hinv
  unfold server versions at *
  unfold Ordered.push
  rcases hg : ((⟨[], depth⟩ : Ordered κ V ν).run qs).1.storage.get? key with _ | ref
  · simp only [hg] at hinv
    simp [hinv]
  · simp only [hg] at hinv
    obtain ⟨h1, h2, h3⟩ := hinv
    simp only [h2, decide_eq_true_eq]
    constructor
    · exact .inr
    · rintro (h0 | h0)
      · exfalso
        cases ref with
        | nil => exact h1 rfl
        | cons a r =>
          have := h3 a.1 (by simp [PyDict.keys])
          rw [h0] at this
          cases this
      · exact h0

/-- Requests of two clients racing for the version after 0, and of one reusing a version in place. -/
def exReqs : List (Req Nat Nat Nat) :=
  [.push 7 100 0 5, .pull 7 none, .push 7 101 1 0, .push 7 102 1 0, .push 8 200 3 3, .push 7 103 1 1, .push 7 104 2 1]

/-- The accepted pushes of the example, as the run reports them. -/
theorem exReqs_accepted : accepted 7 ((server Nat Nat Nat 1).run exReqs).2 =
    [(0, 100, 5), (1, 101, 0), (1, 103, 1), (2, 104, 1)] := by decide +kernel

example : NoReuse' 7 ((server Nat Nat Nat 1).run exReqs).2 := by
  intro pre a post h
  rw [exReqs_accepted] at h
  rcases pre with _ | ⟨b, _ | ⟨c, _ | ⟨d, _ | ⟨e, pre⟩⟩⟩⟩
  · simp at h; simp [← h.1]
  · simp at h; simp [← h.1, ← h.2.1]
  · simp at h; simp [← h.1, ← h.2.1, ← h.2.2.1]
  · simp at h; simp [← h.1, ← h.2.1, ← h.2.2.1, ← h.2.2.2.1]
  · simp at h

/-- The accepted pushes of a key form a single chain: each one is based on the version of the one before it. -/
theorem C24_chain (depth : Nat) (key : κ) (qs : List (Req κ V ν))
    (h : NoReuse' key ((server κ V ν depth).run qs).2) (pre post : List (V × ν × V)) (a b : V × ν × V)
    (hs : accepted key ((server κ V ν depth).run qs).2 = pre ++ a :: b :: post) : b.2.2 = a.1 := by
  induction qs using List.reverseRecOn generalizing pre a b post with
  | nil => simp [Ordered.run, accepted] at hs
  | append_singleton qs q ih =>
    have h0 := h
    rw [run_snoc] at h hs
    simp only at h hs
    rw [accepted_append] at hs
    have hl := NoReuse'.left h
    rcases accepted_single key (q, (((server κ V ν depth).run qs).1.serve q).2) with he | ⟨c, hc⟩
    · rw [he, List.append_nil] at hs
      exact ih hl _ _ _ _ hs
    · rw [hc] at hs
      rcases List.eq_nil_or_concat post with rfl | ⟨post', d, rfl⟩
      · have h1 : accepted key ((server κ V ν depth).run qs).2 ++ [c] = (pre ++ [a]) ++ [b] := by rw [hs]; simp
        obtain ⟨h2, h3⟩ := List.append_inj' h1 rfl
        simp only [List.cons.injEq, and_true] at h3
        subst h3
        rcases q with ⟨k, x, v, p⟩ | ⟨k, v⟩
        swap
        · simp [Ordered.serve, accepted] at hc
        · rcases hb : (((server κ V ν depth).run qs).1.push k x v p).2 with _ | _
          · simp [Ordered.serve, hb, accepted] at hc
          · simp only [Ordered.serve, hb, accepted] at hc
            split at hc
            · rename_i hk
              subst hk
              simp only [List.cons.injEq, and_true] at hc
              subst hc
              have h4 := (C24_accept depth k qs x v p hl).mp hb
              unfold versions at h4
              rw [h2] at h4
              simp at h4
              exact h4.symm
            · cases hc
      · have h1 : accepted key ((server κ V ν depth).run qs).2 ++ [c] = (pre ++ a :: b :: post') ++ [d] := by
          rw [hs]; simp
        obtain ⟨h2, -⟩ := List.append_inj' h1 rfl
        exact ih hl _ _ _ _ h2

/-- Of several pushes to an existing key based on one version at most one is accepted, if versions are not reused. -/
theorem C24_at_most_one (depth : Nat) (key : κ) (qs : List (Req κ V ν))
    (h : NoReuse key ((server κ V ν depth).run qs).2) (i j : Nat) (a b : V × ν × V)
    (hi : (accepted key ((server κ V ν depth).run qs).2)[i + 1]? = some a)
    (hj : (accepted key ((server κ V ν depth).run qs).2)[j + 1]? = some b) (hp : a.2.2 = b.2.2) : i = j := by
  have hchain := C24_chain depth key qs (NoReuse.noReuse' h)
  set acc := accepted key ((server κ V ν depth).run qs).2 with hacc
  have key' : ∀ i a, acc[i + 1]? = some a → (acc.map (·.1))[i]? = some a.2.2 := by
    intro i a hi
    obtain ⟨hlt, hget⟩ := List.getElem?_eq_some_iff.mp hi
    have h1 : acc = acc.take i ++ acc[i] :: acc[i + 1] :: acc.drop (i + 2) := by
      rw [List.getElem_cons_drop, List.getElem_cons_drop, List.take_append_drop]
    have h2 := hchain _ _ _ _ h1
    rw [List.getElem?_map, List.getElem?_eq_getElem (by omega), Option.map_some, ← h2, hget]
  have h1 := key' i a hi
  have h2 := key' j b hj
  rw [hp] at h1
  have hlt := (List.getElem?_eq_some_iff.mp h1).1
  exact (List.getElem?_inj hlt h).mp (h1.trans h2.symm)

example : NoReuse 7 ((server Nat Nat Nat 1).run (exReqs.take 5)).2 ∧
    accepted 7 ((server Nat Nat Nat 1).run (exReqs.take 5)).2 = [(0, 100, 5), (1, 101, 0)] := by
  unfold NoReuse; decide +kernel

/-- The restriction on reused versions is needed: reusing an older retained version is accepted but does not make it the
newest one, so the next push based on it is rejected. -/
theorem C24_reuse_needed : ∃ qs : List (Req Nat Nat Nat),
    (versions 0 ((server Nat Nat Nat 1).run qs).2).getLast? = some 1 ∧
      (((server Nat Nat Nat 1).run qs).1.push 0 40 3 1).2 = false :=
  ⟨[.push 0 10 1 0, .push 0 20 2 1, .push 0 30 1 2], by decide +kernel⟩

/-! ## C25 -/

/-- C25: a server is made for every positive depth, empty, and for no other. -/
theorem C25_new (depth : Nat) (s : Ordered κ V ν) : Ordered.new depth = some s ↔ 1 ≤ depth ∧ s.storage = [] ∧ s.depth = depth := by
  unfold Ordered.new
  obtain ⟨st, d⟩ := s
  by_cases h : depth > 0
  · rw [if_pos h]
    simp only [Option.some.injEq, Ordered.mk.injEq]
    constructor
    · rintro ⟨rfl, rfl⟩; exact ⟨h, rfl, rfl⟩
    · rintro ⟨_, rfl, rfl⟩; exact ⟨rfl, rfl⟩
  · rw [if_neg h]
    constructor
    · intro e; cases e
    · rintro ⟨h1, _⟩; exact absurd h1 h

/-- C25 as stated: exactly the `depth` versions accepted last are retained. -/
def C25_full : Prop :=
  ∀ (depth : Nat) (key : Nat) (qs : List (Req Nat Nat Nat)), 0 < depth →
    NoReuse key ((server Nat Nat Nat depth).run qs).2 →
    (∀ v x, ((server Nat Nat Nat depth).run qs).1.pull key (some v) = some x ↔
      x.2 = v ∧ (v, x.1) ∈ lastN depth ((accepted key ((server Nat Nat Nat depth).run qs).2).map fun a => (a.1, a.2.1)))

/-- One version more than documented is retained: with depth 1, the version before the newest one is still served. -/
theorem C25_violated : ¬ C25_full := by
  intro h
  have := (h 1 0 [.push 0 10 1 0, .push 0 20 2 1] (by decide) (by unfold NoReuse; decide +kernel) 1 (10, 1)).mp
    (by decide +kernel)
  revert this
  decide +kernel

/-- `pull(key)` returns the value and version of the push accepted last, or nothing if there is none. -/
theorem C25_newest_partial (depth : Nat) (key : κ) (qs : List (Req κ V ν))
    (h : NoReuse key ((server κ V ν depth).run qs).2) :
    ((server κ V ν depth).run qs).1.pull key none =
      (accepted key ((server κ V ν depth).run qs).2).getLast?.map fun a => (a.2.1, a.1) := by
  have hinv := inv_run depth key qs h
  unfold Inv at hinv
  unfold NoReuse versions at h
  rw [run_depth] at hinv
  unfold server at *
  unfold Ordered.pull
  rw [hinv]
  set acc := accepted key ((⟨[], depth⟩ : Ordered κ V ν).run qs).2 with hacc
  rcases List.eq_nil_or_concat acc with h0 | ⟨l, a, h0⟩
  · simp [h0]
  · rw [List.concat_eq_append] at h0
    rw [h0] at h ⊢
    rw [if_neg (by simp)]
    set r := lastN (depth + 1) ((l ++ [a]).map fun a => (a.1, a.2.1)) with hr
    have h1 : r.getLast? = some (a.1, a.2.1) := by
      rw [hr, lastN, List.getLast?_drop, if_neg (by simp; omega)]
      simp
    have hnew : newest? r = some a.1 := by simp [newest?, h1]
    have hget : PyDict.get? r a.1 = some a.2.1 := by
      refine PyDict.get?_of_mem ?_ (List.mem_of_getLast? h1)
      have : ((l ++ [a]).map (·.1)).Nodup := h
      have h2 : PyDict.keys r = (((l ++ [a]).map (·.1))).drop ((l ++ [a]).length - (depth + 1)) := by
        rw [hr]
        simp only [PyDict.keys, lastN, List.map_drop, List.map_map, List.length_map]
        congr 1
      unfold PyDict.WF
      rw [h2]
      exact this.sublist (List.drop_sublist _ _)
    simp only [hnew, Option.bind_some, hget, Option.map_some]
    simp

example : ((server Nat Nat Nat 1).run (exReqs.take 5)).1.pull 7 none = some (101, 1) := by decide +kernel

/-- Missing: the documented number of retained versions. `pull(key, version)` returns the value pushed with that version
exactly if it is one of the `depth + 1` versions accepted last, and nothing otherwise. -/
theorem C25_retained_partial (depth : Nat) (key : κ) (qs : List (Req κ V ν))
    (h : NoReuse key ((server κ V ν depth).run qs).2) (v : V) (x : ν × V) :
    ((server κ V ν depth).run qs).1.pull key (some v) = some x ↔
      x.2 = v ∧
        (v, x.1) ∈ lastN (depth + 1) ((accepted key ((server κ V ν depth).run qs).2).map fun a => (a.1, a.2.1)) := by
  have hinv := inv_run depth key qs h
  unfold Inv at hinv
  unfold NoReuse versions at h
  rw [run_depth] at hinv
  unfold server at *
  unfold Ordered.pull
  rw [hinv]
  set acc := accepted key ((⟨[], depth⟩ : Ordered κ V ν).run qs).2 with hacc
  by_cases h0 : acc = []
  · simp [h0, lastN]
  · rw [if_neg h0]
    set r := lastN (depth + 1) (acc.map fun a => (a.1, a.2.1)) with hr
    have hnd : PyDict.keys r |>.Nodup := by
      have h2 : PyDict.keys r = ((acc.map (·.1))).drop (acc.length - (depth + 1)) := by
        rw [hr]
        simp only [PyDict.keys, lastN, List.map_drop, List.map_map, List.length_map]
        congr 1
      rw [h2]
      exact h.sublist (List.drop_sublist _ _)
    simp only [Option.map_eq_some_iff, get?_of_nodup_mem hnd]
    constructor
    · rintro ⟨y, hy, rfl⟩
      exact ⟨rfl, hy⟩
    · rintro ⟨rfl, hx⟩
      exact ⟨x.1, hx, rfl⟩

example : ((server Nat Nat Nat 1).run [.push 0 10 1 0, .push 0 20 2 1, .push 0 30 3 2]).1.pull 0 (some 1) = none := by
  decide +kernel
example : ((server Nat Nat Nat 1).run [.push 0 10 1 0, .push 0 20 2 1, .push 0 30 3 2]).1.pull 0 (some 2) =
    some (20, 2) := by decide +kernel

/-! ## C26 -/

/-- The state after some steps of the clients. -/
abbrev after (p : Nat → ν) (as : List (Act ν)) : Net ν := ((Net.init p).run as).1

/-- The accepted pushes. -/
abbrev pushes (p : Nat → ν) (as : List (Act ν)) : List (Nat × Option Nat × ν) := ((Net.init p).run as).2

/-- Versions increase by one with each accepted push: the server serves the parameters pushed last, under the number of
accepted pushes. -/
theorem C26_newest (p : Nat → ν) (as : List (Act ν)) :
    (after p as).server.pull () none = (pushes p as).getLast?.map fun e => (e.2.2, (pushes p as).length) :=
  (ninv_run p as).pull

/-- Steps of two clients: both push the first version; the second one is rejected, and pulls after the first one has pushed
again. -/
def exActs : List (Act Nat) :=
  [.train 0 50, .push 0 true, .push 1 true, .train 0 51, .push 0 true, .finish 1, .train 1 60, .push 1 true, .pull 0]

theorem exActs_pushes : pushes (fun i => i) exActs = [(0, none, 50), (0, some 1, 51), (1, some 2, 60)] := by
  decide +kernel

/-- A push is accepted exactly if the version of the client is the newest one. -/
theorem C26_accept (p : Nat → ν) (as : List (Act ν)) (i : Nat) (b : Bool)
    (hi : ((after p as).client i).pulling = false) :
    ((after p as).step (.push i b)).2 = some true ↔ ((after p as).client i).version.getD 0 = (pushes p as).length := by
  have h := ninv_run p as
  have hs := h.step (.push i b)
  set n := after p as with hn
  constructor
  · intro ha
    have h1 : n.event (.push i b) = [(i, (n.client i).version, (n.client i).params)] := by
      simp only [Net.event]; rw [if_pos ha]
    have := hs.based (pushes p as).length (i, (n.client i).version, (n.client i).params)
      (by rw [h1]; simp)
    exact this
  · intro hv
    simp only [Net.step, hi]
    have : (n.server.push () (n.client i).params ((n.client i).version.getD 0 + 1) ((n.client i).version.getD 0)).2
        = true := by
      rcases hl : (pushes p as).getLast? with _ | e
      · have hl' := List.getLast?_eq_none_iff.mp hl
        exact (push_empty (h.empty hl') _ _ _).1
      · obtain ⟨ref, h1, h2, h3, h4, h5⟩ := h.stored e hl
        rw [hv]
        exact (push_newest h.depth h1 h2 h4 h5 _).1
    simp [this]

example : ((after (fun i => i) (exActs.take 2)).client 1).pulling = false := by decide +kernel

/-- Every accepted push was made by a client whose version was the newest one, and which held, when it got this version,
the parameters pushed last. -/
theorem C26_based (p : Nat → ν) (as : List (Act ν)) :
    (∀ (k : Nat) (e : Nat × Option Nat × ν), (pushes p as)[k]? = some e → e.2.1.getD 0 = k) ∧
    (∀ i v, ((after p as).client i).version = some (v + 1) →
      ∃ e, (pushes p as)[v]? = some e ∧ (Net.init p).base p as i = e.2.2) :=
  ⟨(ninv_run p as).based, (ninv_run p as).base⟩

example : ((after (fun i => i) (exActs.take 6)).client 1).version = some 2 ∧
    (Net.init fun i => i).base (fun i => i) (exActs.take 6) 1 = 51 := by decide +kernel

/-- A client whose push was rejected holds the newest parameters and version when its `push` returns. -/
theorem C26_rejected (p : Nat → ν) (as : List (Act ν)) (i : Nat) (hi : ((after p as).client i).pulling = true) :
    ∃ e, (pushes p as).getLast? = some e ∧
      ((after p as).step (.finish i)).1.client i = ⟨some (pushes p as).length, e.2.2, false⟩ := by
  have h := ninv_run p as
  have hlt := h.pulling i hi
  rcases hl : (pushes p as).getLast? with _ | e
  · have hl' : ((Net.init p).run as).2 = [] := List.getLast?_eq_none_iff.mp hl
    rw [hl'] at hlt
    simp at hlt
  · refine ⟨e, rfl, ?_⟩
    have hp := h.pull
    have hl2 : ((Net.init p).run as).2.getLast? = some e := hl
    rw [hl2] at hp
    simp only [Net.step, hi, if_true, hp, Option.map_some]
    simp [Net.setClient]

example : ((after (fun i => i) (exActs.take 5)).client 1).pulling = true := by decide +kernel

/-- No client holds a version newer than the server's. -/
theorem C26_bound (p : Nat → ν) (as : List (Act ν)) (i : Nat) :
    ((after p as).client i).version.getD 0 ≤ (pushes p as).length := (ninv_run p as).bound i

/-- After a (returned) pull, a client of a server that accepted a push is at the newest version. -/
theorem C26_pull (p : Nat → ν) (as : List (Act ν)) (i : Nat) (hi : ((after p as).client i).pulling = false)
    (hne : pushes p as ≠ []) :
    (((after p as).step (.pull i)).1.client i).version = some (pushes p as).length := by
  have h := ninv_run p as
  have hb := h.bound i
  rcases hl : (pushes p as).getLast? with _ | e
  · exact absurd (List.getLast?_eq_none_iff.mp hl) hne
  · have hp := h.pull
    have hl2 : ((Net.init p).run as).2.getLast? = some e := hl
    rw [hl2] at hp
    simp only [Net.step, hi, hp, Option.map_some]
    simp only [Bool.false_eq_true, if_false]
    split
    · simp [Net.setClient]
    · rename_i hc
      simp only [not_or, Nat.not_lt] at hc
      obtain ⟨v, hv⟩ := Option.ne_none_iff_exists'.mp hc.1
      rw [hv] at hc hb ⊢
      simp only [Option.getD_some] at hc hb
      congr 1
      exact Nat.le_antisymm hb hc.2

example : pushes (fun i => i) (exActs.take 2) ≠ [] := by decide +kernel

end Machin.Server
