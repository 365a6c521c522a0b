import Verif.Group.Collective
import Verif.Group.Spec

/-! # Lemmas about services, collective groups and calls of all members -/

namespace Machin.Group

/-! ### Services -/

theorem run_append (a b : List CStep) : Obj.run (a ++ b) = b.foldl Obj.step (Obj.run a) := by
  simp [Obj.run]

theorem run_snoc (a : List CStep) (c : CStep) : Obj.run (a ++ [c]) = (Obj.run a).step c := by
  simp [Obj.run]

theorem attrs_run (steps : List CStep) :
    (Obj.run steps).attrs = steps.filterMap (fun c => match c with | .set a => some a | _ => none) := by
  have key : ∀ o : Obj, (steps.foldl Obj.step o).attrs =
      o.attrs ++ steps.filterMap (fun c => match c with | .set a => some a | _ => none) := by
    induction steps with
    | nil => intro o; simp
    | cons c cs ih =>
      intro o
      rw [List.foldl_cons, ih]
      cases c <;> simp [Obj.step]
  simpa [Obj.run, Obj.empty] using key Obj.empty

theorem mem_attrs {steps : List CStep} {a : String} : a ∈ (Obj.run steps).attrs ↔ CStep.set a ∈ steps := by
  rw [attrs_run, List.mem_filterMap]
  constructor
  · rintro ⟨c, hc, h⟩
    cases c <;> simp at h
    rw [← h]; exact hc
  · intro h
    exact ⟨_, h, rfl⟩

theorem services_run (steps : List CStep) :
    (Obj.run steps).services = steps.filterMap (fun c => match c with | .register s r => some (s, r) | _ => none) := by
  have key : ∀ o : Obj, (steps.foldl Obj.step o).services =
      o.services ++ steps.filterMap (fun c => match c with | .register s r => some (s, r) | _ => none) := by
    induction steps with
    | nil => intro o; simp
    | cons c cs ih =>
      intro o
      rw [List.foldl_cons, ih]
      cases c <;> simp [Obj.step]
  simpa [Obj.run, Obj.empty] using key Obj.empty

theorem find_of_nodup {l : List (String × List String)} (hn : (l.map (·.1)).Nodup) {s : String} {r : List String}
    (h : (s, r) ∈ l) : l.find? (fun x => x.1 == s) = some (s, r) := by
  induction l with
  | nil => cases h
  | cons a l ih =>
    rw [List.map_cons, List.nodup_cons] at hn
    rcases List.mem_cons.1 h with rfl | h'
    · simp
    · have hne : a.1 ≠ s := fun e => hn.1 (e ▸ List.mem_map.2 ⟨_, h', rfl⟩)
      rw [List.find?_cons]
      have : (a.1 == s) = false := by simpa using hne
      rw [this]
      exact ih hn.2 h'

/-! ### Ranks -/

theorem indexOf_some {r : Nat} {l : List Nat} (h : r ∈ l) : ∃ i, indexOf? r l = some i ∧ l[i]? = some r := by
  induction l with
  | nil => cases h
  | cons x xs ih =>
    unfold indexOf?
    by_cases e : x = r
    · exact ⟨0, by rw [if_pos e], by simp [e]⟩
    · rcases List.mem_cons.1 h with rfl | h'
      · exact absurd rfl e
      · rcases ih h' with ⟨i, h1, h2⟩
        exact ⟨i + 1, by rw [if_neg e, h1]; rfl, by simpa using h2⟩

theorem indexOf_none {r : Nat} {l : List Nat} (h : r ∉ l) : indexOf? r l = none := by
  induction l with
  | nil => rfl
  | cons x xs ih =>
    unfold indexOf?
    rw [if_neg (fun e => h (by rw [e]; simp)), ih (fun hx => h (by simp [hx]))]
    rfl

theorem indexOf_get {r i : Nat} {l : List Nat} (h : indexOf? r l = some i) : l[i]? = some r := by
  by_cases hr : r ∈ l
  · rcases indexOf_some hr with ⟨j, h1, h2⟩
    rw [h1] at h; cases h; exact h2
  · rw [indexOf_none hr] at h; cases h

theorem mem_insertRank {r x : Nat} {l : List Nat} : x ∈ insertRank r l ↔ x = r ∨ x ∈ l := by
  induction l with
  | nil => simp [insertRank]
  | cons y ys ih =>
    unfold insertRank
    split
    · simp
    · rw [List.mem_cons, ih, List.mem_cons]
      constructor
      · rintro (h | h | h)
        · exact Or.inr (Or.inl h)
        · exact Or.inl h
        · exact Or.inr (Or.inr h)
      · rintro (h | h | h)
        · exact Or.inr (Or.inl h)
        · exact Or.inl h
        · exact Or.inr (Or.inr h)

theorem mem_sortRanks {x : Nat} {l : List Nat} : x ∈ sortRanks l ↔ x ∈ l := by
  induction l with
  | nil => simp [sortRanks]
  | cons y ys ih => simp [sortRanks, mem_insertRank, ih]

theorem insertRank_sorted {r : Nat} {l : List Nat} (h : l.Pairwise (· ≤ ·)) : (insertRank r l).Pairwise (· ≤ ·) := by
  induction l with
  | nil => simp [insertRank]
  | cons y ys ih =>
    unfold insertRank
    rw [List.pairwise_cons] at h
    split
    · rename_i hle
      rw [List.pairwise_cons]
      refine ⟨fun z hz => ?_, List.pairwise_cons.2 h⟩
      rcases List.mem_cons.1 hz with rfl | hz'
      · exact hle
      · exact Nat.le_trans hle (h.1 z hz')
    · rename_i hle
      rw [List.pairwise_cons]
      refine ⟨fun z hz => ?_, ih h.2⟩
      rcases mem_insertRank.1 hz with rfl | hz'
      · omega
      · exact h.1 z hz'

theorem sortRanks_sorted (l : List Nat) : (sortRanks l).Pairwise (· ≤ ·) := by
  induction l with
  | nil => simp [sortRanks]
  | cons y ys ih => exact insertRank_sorted ih

theorem insertRank_count (r k : Nat) (l : List Nat) :
    ((insertRank r l).filter (· < k)).length = ((r :: l).filter (· < k)).length := by
  induction l with
  | nil => rfl
  | cons y ys ih =>
    unfold insertRank
    split
    · rfl
    · simp only [List.filter_cons] at ih ⊢
      split <;> split <;> simp_all

theorem sortRanks_count (k : Nat) (l : List Nat) :
    ((sortRanks l).filter (· < k)).length = (l.filter (· < k)).length := by
  induction l with
  | nil => rfl
  | cons y ys ih =>
    show ((insertRank y (sortRanks ys)).filter (· < k)).length = _
    rw [insertRank_count]
    simp only [List.filter_cons]
    split <;> simp [ih]

theorem indexOf_sorted {r : Nat} {l : List Nat} (hs : l.Pairwise (· ≤ ·)) (h : r ∈ l) :
    indexOf? r l = some (l.filter (· < r)).length := by
  induction l with
  | nil => cases h
  | cons x xs ih =>
    rw [List.pairwise_cons] at hs
    unfold indexOf?
    by_cases e : x = r
    · rw [if_pos e]
      have : (x :: xs).filter (· < r) = [] := by
        rw [List.filter_eq_nil_iff]
        intro z hz
        rcases List.mem_cons.1 hz with rfl | hz'
        · simp [e]
        · have := hs.1 z hz'; simp; omega
      rw [this]; rfl
    · rcases List.mem_cons.1 h with rfl | h'
      · exact absurd rfl e
      · have hlt : x < r := by have := hs.1 r h'; omega
        rw [if_neg e, ih hs.2 h', List.filter_cons, if_pos (by simpa using hlt)]
        rfl

/-! ### Messages -/

theorem takeMsg_mem {me : Nat} {src : Option Nat} {net net' : List Msg} {m : Msg}
    (h : takeMsg me src net = some (m, net')) :
    m ∈ net ∧ m.dst = me ∧ (src = none ∨ src = some m.src) := by
  induction net generalizing net' m with
  | nil => cases h
  | cons x xs ih =>
    unfold takeMsg at h
    split at h
    · rename_i hx
      cases h
      exact ⟨by simp, hx.1, hx.2⟩
    · cases ht : takeMsg me src xs with
      | none => rw [ht] at h; cases h
      | some r =>
        rcases r with ⟨m', n'⟩
        rw [ht] at h
        simp only [Option.map_some, Option.some.injEq, Prod.mk.injEq] at h
        rcases ih ht with ⟨h1, h2⟩
        rw [← h.1]
        exact ⟨by simp [h1], h2⟩

theorem takeMsg_first {me : Nat} {src : Option Nat} (pre post : List Msg) (m : Msg)
    (hpre : ∀ x ∈ pre, ¬ (x.dst = me ∧ (src = none ∨ src = some x.src))) (hm : m.dst = me ∧ (src = none ∨ src = some m.src)) :
    takeMsg me src (pre ++ m :: post) = some (m, pre ++ post) := by
  induction pre with
  | nil =>
    show takeMsg me src (m :: post) = some (m, post)
    simp only [takeMsg]
    rw [if_pos hm]
  | cons x xs ih =>
    rw [List.cons_append]
    unfold takeMsg
    rw [if_neg (hpre x (by simp)), ih (fun y hy => hpre y (by simp [hy]))]
    rfl

/-! ### Calls of all members -/

variable {B R : Type}

/-- Member `p` does not serve in these events. -/
def NoServe (p : Nat) (evs : List (Ev B)) : Prop := ∀ e ∈ evs, ∀ q, e = .serve q → q ≠ p

theorem fold_noServe (svc : Service B R) (p : Nat) (evs : List (Ev B)) (h : NoServe p evs) (c : Call B R) :
    (evs.foldl (Call.step svc) c).buf p = others p evs (c.buf p) ∧ (evs.foldl (Call.step svc) c).ans p = c.ans p := by
  induction evs generalizing c with
  | nil => exact ⟨rfl, rfl⟩
  | cons e es ih =>
    rw [List.foldl_cons]
    have hes : NoServe p es := fun e' he' => h e' (by simp [he'])
    rcases ih hes (Call.step svc c e) with ⟨h1, h2⟩
    rw [h1, h2]
    cases e with
    | other q f =>
      constructor
      · show _ = others p es _
        simp only [Call.step]
        by_cases hq : q = p
        · subst hq; simp
        · have : p ≠ q := fun e => hq e.symm
          simp [hq, this]
      · rfl
    | serve q =>
      have hq : p ≠ q := fun e => h _ (by simp) q rfl e.symm
      constructor
      · simp [Call.step, hq, others]
      · simp [Call.step, hq]

theorem others_append (p : Nat) (a b : List (Ev B)) (x : B) : others p (a ++ b) x = others p b (others p a x) := by
  simp [others]

/-- The members that serve, in order. -/
def servers (evs : List (Ev B)) : List Nat :=
  evs.filterMap (fun e => match e with | .serve p => some p | .other _ _ => none)

theorem noServe_iff {p : Nat} {evs : List (Ev B)} : NoServe p evs ↔ p ∉ servers evs := by
  unfold NoServe servers
  constructor
  · intro h hp
    rcases List.mem_filterMap.1 hp with ⟨e, he, h1⟩
    cases e with
    | other q f => simp at h1
    | serve q => simp only [Option.some.injEq] at h1; exact h _ he q rfl h1
  · intro h e he q hq hqp
    subst hq; subst hqp
    exact h (List.mem_filterMap.2 ⟨_, he, rfl⟩)

theorem split_serve {p : Nat} {evs : List (Ev B)} (h : p ∈ servers evs) (hn : (servers evs).Nodup) :
    ∃ pre post, evs = pre ++ .serve p :: post ∧ NoServe p pre ∧ NoServe p post := by
  induction evs with
  | nil => cases h
  | cons e es ih =>
    cases e with
    | other q f =>
      have h' : p ∈ servers es := h
      have hn' : (servers es).Nodup := hn
      rcases ih h' hn' with ⟨pre, post, he, h1, h2⟩
      refine ⟨.other q f :: pre, post, by rw [he]; rfl, ?_, h2⟩
      intro e' he' q' hq'
      rcases List.mem_cons.1 he' with rfl | he''
      · cases hq'
      · exact h1 e' he'' q' hq'
    | serve q =>
      have hs : servers (Ev.serve q :: es) = q :: servers es := rfl
      rw [hs] at h hn
      rw [List.nodup_cons] at hn
      by_cases hq : p = q
      · subst hq
        exact ⟨[], es, rfl, by simp [NoServe], noServe_iff.2 hn.1⟩
      · rcases List.mem_cons.1 h with h' | h'
        · exact absurd h' hq
        rcases ih h' hn.2 with ⟨pre, post, he, h1, h2⟩
        refine ⟨.serve q :: pre, post, by rw [he]; rfl, ?_, h2⟩
        intro e' he' q' hq'
        rcases List.mem_cons.1 he' with rfl | he''
        · cases hq'; exact fun e => hq e.symm
        · exact h1 e' he'' q' hq'

/-- What member `p` has after the call, and what it answered. -/
theorem run_split (svc : Service B R) (buf : Nat → B) (p : Nat) (pre post : List (Ev B)) (h1 : NoServe p pre)
    (h2 : NoServe p post) :
    (Call.run svc buf (pre ++ .serve p :: post)).buf p = others p post (svc (others p pre (buf p))).1 ∧
    (Call.run svc buf (pre ++ .serve p :: post)).ans p = some (svc (others p pre (buf p))).2 := by
  unfold Call.run
  rw [List.foldl_append, List.foldl_cons]
  rcases fold_noServe svc p pre h1 ⟨buf, fun _ => none⟩ with ⟨ha, hb⟩
  rcases fold_noServe svc p post h2 (Call.step svc (pre.foldl (Call.step svc) ⟨buf, fun _ => none⟩) (.serve p)) with ⟨hc, hd⟩
  rw [hc, hd]
  simp only [Call.step, if_true, ha]
  exact ⟨trivial, trivial⟩

theorem sumAnswers_eq {ans : Nat → Option Nat} {f : Nat → Nat} {l : List Nat} (h : ∀ p ∈ l, ans p = some (f p)) :
    sumAnswers ans l = some (l.map f).sum := by
  induction l with
  | nil => rfl
  | cons a l ih =>
    unfold sumAnswers
    rw [h a (by simp), ih (fun p hp => h p (by simp [hp]))]
    simp

theorem reached_all {registered : Nat → Bool} {l : List Nat} (h : ∀ m ∈ l, registered m = true) :
    reached registered l = (l, true) := by
  induction l with
  | nil => rfl
  | cons a l ih =>
    unfold reached
    rw [h a (by simp), ih (fun m hm => h m (by simp [hm]))]
    rfl

theorem reached_stop {registered : Nat → Bool} (pre post : List Nat) (m : Nat) (h : ∀ q ∈ pre, registered q = true)
    (hm : registered m = false) : reached registered (pre ++ m :: post) = (pre, false) := by
  induction pre with
  | nil => simp [reached, hm]
  | cons a l ih =>
    rw [List.cons_append]
    unfold reached
    rw [h a (by simp), ih (fun q hq => h q (by simp [hq]))]
    rfl

theorem reached_error {registered : Nat → Bool} {l : List Nat} (h : ∃ m ∈ l, registered m = false) :
    (reached registered l).2 = false := by
  induction l with
  | nil => rcases h with ⟨m, hm, _⟩; cases hm
  | cons a l ih =>
    unfold reached
    cases ha : registered a with
    | false => rfl
    | true =>
      rcases h with ⟨m, hm, hr⟩
      rcases List.mem_cons.1 hm with rfl | hm'
      · rw [ha] at hr; cases hr
      · exact ih ⟨m, hm', hr⟩

end Machin.Group
