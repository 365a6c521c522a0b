import Verif.Rnn.History
import Verif.Rnn.Spec
import Verif.Replay.Lemmas
import Verif.Prio.Lemmas

/-! # Lemmas about the RNN buffers -/

namespace Machin.Rnn

open Replay Prio Spec

/-! ### Uniform buffer -/

/-- An entry of `episode_transition_handles` holds the handles of an episode. -/
def Holds {τ : Type} (b : Buffer τ) (p : Nat × List Nat) (q : Nat × List τ) : Prop :=
  p.1 = q.1 ∧ p.2.map (fun k => b.storage.data[k]?) = q.2.map some

theorem Holds.length {τ : Type} {b : Buffer τ} {p : Nat × List Nat} {q : Nat × List τ} (h : Holds b p q) :
    p.2.length = q.2.length := by
  have := congrArg List.length h.2
  simpa using this

theorem ethOf_holds {τ : Type} {N : Nat} {flat : List τ} {b : Buffer τ} (hs : SInv N flat b.storage) :
    ∀ (L : List (Nat × List τ)) (A : List τ), flat = A ++ (L.map (·.2)).flatten → flat.length ≤ A.length + N →
      List.Forall₂ (Holds b) (ethOf N A.length L) L := by
  intro L
  induction L with
  | nil => intro A _ _; exact List.Forall₂.nil
  | cons p L ih =>
    obtain ⟨i, e⟩ := p
    intro A hflat hfit
    have hflat1 : flat = A ++ (e ++ (L.map (·.2)).flatten) := by simpa using hflat
    have h1 := fetch_slots (b := b) hs A e _ hflat1 hfit
    have h2 := ih (A ++ e) (by rw [hflat1, List.append_assoc]) (by rw [List.length_append]; omega)
    rw [List.length_append] at h2
    exact List.Forall₂.cons ⟨rfl, h1⟩ h2

theorem BInv.entries {τ : Type} {N : Nat} {hist : List (List τ)} {b : Buffer τ} (hb : BInv N hist b) :
    ∃ M : List (Nat × List τ), M.map (·.2) = Replay.Spec.keep N hist ∧ (M.map (·.1)).Nodup ∧
      List.Forall₂ (Holds b) b.eth M := by
  obtain ⟨hs, hne, s, L, hsum, hL, hten, heth, hnd, hlt⟩ := hb
  obtain ⟨P, hP⟩ := keep_suffix N hist
  have hA : s = P.flatten.length := by
    have h1 : hist.flatten.length = P.flatten.length + (Replay.Spec.keep N hist).flatten.length := by
      conv => lhs; rw [hP]
      simp
    unfold total at hsum
    rw [hL] at hsum
    omega
  have htot := keep_total N hist
  have hflat : hist.flatten = P.flatten ++ (L.map (·.2)).flatten := by
    rw [hL, ← List.flatten_append, ← hP]
  have hfit : hist.flatten.length ≤ P.flatten.length + N := by
    rw [hflat, List.length_append, hL]; omega
  refine ⟨L, hL, hnd, ?_⟩
  rw [heth, hA]
  exact ethOf_holds hs L P.flatten hflat hfit

theorem holds_get {τ : Type} {b : Buffer τ} : ∀ {d : PyDict Nat (List Nat)} {M : List (Nat × List τ)},
    List.Forall₂ (Holds b) d M → (M.map (·.1)).Nodup → ∀ e ∈ M, ∃ hs, d.get? e.1 = some hs ∧ Holds b (e.1, hs) e := by
  intro d M h
  induction h with
  | nil => intro _ e he; simp at he
  | @cons p q d M h1 h2 ih =>
    intro hnd e he
    rw [List.map_cons, List.nodup_cons] at hnd
    rw [PyDict.get?_cons]
    rcases List.mem_cons.1 he with rfl | he
    · exact ⟨p.2, by rw [if_pos h1.1], rfl, h1.2⟩
    · obtain ⟨hs, k1, k2⟩ := ih hnd.2 e he
      refine ⟨hs, ?_, k2⟩
      rw [if_neg, k1]
      intro hc
      apply hnd.1
      rw [← h1.1, hc]
      exact List.mem_map.2 ⟨e, he, rfl⟩

theorem holds_valid {τ : Type} {b : Buffer τ} (L : Nat) {d : PyDict Nat (List Nat)} {M : List (Nat × List τ)}
    (h : List.Forall₂ (Holds b) d M) : validEpisodes L d = (M.filter fun e => L ≤ e.2.length).map (·.1) := by
  unfold validEpisodes
  induction h with
  | nil => rfl
  | @cons p q d M h1 h2 ih =>
    have hl := h1.length
    rw [List.filter_cons, List.filter_cons]
    by_cases hc : L ≤ q.2.length
    · have hc' : L ≤ p.2.length := by omega
      simp only [hc, hc', decide_true, if_true, List.map_cons, ih, h1.1]
    · have hc' : ¬ L ≤ p.2.length := by omega
      simp only [hc, hc', decide_false]
      exact ih

theorem window_fetch {τ : Type} {b : Buffer τ} {i : Nat} {hs : List Nat} {e : Nat × List τ} (h : Holds b (i, hs) e)
    (pos L : Nat) : b.fetch ((hs.drop pos).take L) = .ok ((e.2.drop pos).take L) := by
  apply fetch_eq
  rw [List.map_take, List.map_drop, h.2, List.map_take, List.map_drop]

theorem startPositions_ok {τ : Type} {b : Buffer τ} {M : List (Nat × List τ)} (h : List.Forall₂ (Holds b) b.eth M)
    (hnd : (M.map (·.1)).Nodup) (randint : Nat → Nat → Nat) (L : Nat) : ∀ (q : List (Nat × List τ)) (i : Nat),
    (∀ e ∈ q, e ∈ M) → ∃ starts, startPositions randint b.eth L i (q.map (·.1)) = .ok starts ∧
      List.Forall₂ (fun e s => s.1 = e.1 ∧ ∃ j, s.2 = randint j (e.2.length - L)) q starts := by
  intro q
  induction q with
  | nil => intro i _; exact ⟨[], rfl, List.Forall₂.nil⟩
  | cons e q ih =>
    intro i hm
    obtain ⟨hs, k1, k2⟩ := holds_get h hnd e (hm e (by simp))
    obtain ⟨st, s1, s2⟩ := ih (i + 1) (fun e he => hm e (by simp [he]))
    refine ⟨(e.1, randint i (hs.length - L)) :: st, ?_, List.Forall₂.cons ⟨rfl, i, ?_⟩ s2⟩
    · simp only [List.map_cons, startPositions, k1, s1]
    · have := k2.length
      simp only at this
      simp only [this]

theorem gather_ok {τ : Type} {b : Buffer τ} {M : List (Nat × List τ)} (h : List.Forall₂ (Holds b) b.eth M)
    (hnd : (M.map (·.1)).Nodup) (L : Nat) {q : List (Nat × List τ)} {starts : List (Nat × Nat)}
    (hq : List.Forall₂ (fun e s => s.1 = e.1 ∧ s.2 + L ≤ e.2.length) q starts) (hm : ∀ e ∈ q, e ∈ M) :
    gather b L starts = .ok (List.zipWith (fun e s => (e.2.drop s.2).take L) q starts).flatten := by
  induction hq with
  | nil => rfl
  | @cons e s q st h1 h2 ih =>
    obtain ⟨hs, k1, k2⟩ := holds_get h hnd e (hm e (by simp))
    obtain ⟨s1, s2⟩ := s
    simp only at h1
    have e1 := h1.1
    subst e1
    simp only [gather, k1, window_fetch k2, ih (fun e he => hm e (by simp [he])), List.zipWith_cons_cons,
      List.flatten_cons]

theorem perm_map_inv {α β : Type} (f : α → β) : ∀ (l : List β) (xs : List α), l.Perm (xs.map f) →
    ∃ q : List α, q.Perm xs ∧ q.map f = l := by
  intro l
  induction l with
  | nil =>
    intro xs h
    have : xs = [] := by simpa using h.nil_eq
    subst this
    exact ⟨[], List.Perm.refl _, rfl⟩
  | cons a l ih =>
    intro xs h
    have ha : a ∈ xs.map f := h.subset (by simp)
    obtain ⟨x, hx, rfl⟩ := List.mem_map.1 ha
    obtain ⟨s, t, rfl⟩ := List.append_of_mem hx
    have : l.Perm ((s ++ t).map f) := by
      have h1 : ((s ++ x :: t).map f).Perm (f x :: (s ++ t).map f) := by
        simp only [List.map_append, List.map_cons]
        exact List.perm_middle
      exact List.Perm.cons_inv (h.trans h1)
    obtain ⟨q, q1, q2⟩ := ih _ this
    exact ⟨x :: q, (List.Perm.cons x q1).trans List.perm_middle.symm, by simp [q2]⟩

theorem mem_map_inv {α β : Type} (f : α → β) (xs : List α) : ∀ l : List β, (∀ y ∈ l, y ∈ xs.map f) →
    ∃ q : List α, (∀ x ∈ q, x ∈ xs) ∧ q.map f = l := by
  intro l
  induction l with
  | nil => intro _; exact ⟨[], by simp, rfl⟩
  | cons a l ih =>
    intro h
    obtain ⟨x, hx, rfl⟩ := List.mem_map.1 (h a (by simp))
    obtain ⟨q, q1, q2⟩ := ih (fun y hy => h y (by simp [hy]))
    exact ⟨x :: q, by intro y hy; rcases List.mem_cons.1 hy with rfl | hy
                      · exact hx
                      · exact q1 y hy, by simp [q2]⟩

/-- The common part of both random methods. -/
theorem sampleEpisodes_ok {τ : Type} {b : Buffer τ} {M : List (Nat × List τ)} (h : List.Forall₂ (Holds b) b.eth M)
    (hnd : (M.map (·.1)).Nodup) (draw : List Nat → Nat → List Nat) (randint : Nat → Nat → Nat)
    (hr : ∀ j hi, randint j hi ≤ hi) (L B : Nat) (q : List (Nat × List τ))
    (hq : ∀ e ∈ q, e ∈ M.filter fun e => L ≤ e.2.length)
    (hdraw : draw (validEpisodes L b.eth) (min (validEpisodes L b.eth).length B) = q.map (·.1)) :
    ∃ ws : List (List τ), List.Forall₂ (IsRun L) (q.map (·.2)) ws ∧
      sampleEpisodes draw randint b L B = .ok (q.length, ws.flatten) := by
  have hq1 : ∀ e ∈ q, e ∈ M := fun e he => (List.mem_filter.1 (hq e he)).1
  have hq2 : ∀ e ∈ q, L ≤ e.2.length := fun e he => by
    have := (List.mem_filter.1 (hq e he)).2; simpa using this
  obtain ⟨starts, s1, s2⟩ := startPositions_ok h hnd randint L q 0 hq1
  have s3 : List.Forall₂ (fun e s => s.1 = e.1 ∧ s.2 + L ≤ e.2.length) q starts := by
    clear hdraw s1 hq hq1
    induction s2 with
    | nil => exact List.Forall₂.nil
    | @cons e s q st h1 h2 ih =>
      refine List.Forall₂.cons ⟨h1.1, ?_⟩ (ih fun e he => hq2 e (by simp [he]))
      obtain ⟨j, hj⟩ := h1.2
      have := hr j (e.2.length - L)
      have := hq2 e (by simp)
      omega
  refine ⟨List.zipWith (fun e s => (e.2.drop s.2).take L) q starts, ?_, ?_⟩
  · clear hdraw s1 hq hq1 hq2 s2
    induction s3 with
    | nil => exact List.Forall₂.nil
    | @cons e s q st h1 h2 ih =>
      rw [List.map_cons, List.zipWith_cons_cons]
      exact List.Forall₂.cons ⟨s.2, h1.2, rfl⟩ ih
  · simp only [sampleEpisodes, hdraw, s1, gather_ok h hnd L s3 hq1, List.length_map]

theorem allStarts_ok {τ : Type} {b : Buffer τ} {M : List (Nat × List τ)} (h : List.Forall₂ (Holds b) b.eth M)
    (hnd : (M.map (·.1)).Nodup) (L : Nat) : ∀ (q : List (Nat × List τ)), (∀ e ∈ q, e ∈ M) →
    allStarts b.eth L (q.map (·.1)) =
      .ok (q.flatMap fun e => (List.range (e.2.length - L + 1)).map fun pos => (e.1, pos)) := by
  intro q
  induction q with
  | nil => intro _; rfl
  | cons e q ih =>
    intro hm
    obtain ⟨hs, k1, k2⟩ := holds_get h hnd e (hm e (by simp))
    have hl := k2.length
    simp only at hl
    simp only [List.map_cons, allStarts, k1, ih (fun e he => hm e (by simp [he])), List.flatMap_cons, hl]

theorem gather_append {τ : Type} (b : Buffer τ) (L : Nat) (s t : List (Nat × Nat)) (xs ys : List τ)
    (hs : gather b L s = .ok xs) (ht : gather b L t = .ok ys) : gather b L (s ++ t) = .ok (xs ++ ys) := by
  induction s generalizing xs with
  | nil => simp only [gather, Except.ok.injEq] at hs; subst hs; exact ht
  | cons p s ih =>
    obtain ⟨ep, pos⟩ := p
    simp only [gather] at hs
    cases h1 : b.eth.get? ep with
    | none => rw [h1] at hs; cases hs
    | some hh =>
      rw [h1] at hs
      simp only at hs
      cases h2 : b.fetch ((hh.drop pos).take L) with
      | error e => rw [h2] at hs; cases hs
      | ok as =>
        rw [h2] at hs
        simp only at hs
        cases h3 : gather b L s with
        | error e => rw [h3] at hs; cases hs
        | ok bs =>
          rw [h3] at hs
          simp only [Except.ok.injEq] at hs
          subst hs
          have := ih bs h3
          simp only [List.cons_append, gather, h1, h2, this, List.append_assoc]

theorem gather_runs {τ : Type} {b : Buffer τ} {M : List (Nat × List τ)} (h : List.Forall₂ (Holds b) b.eth M)
    (hnd : (M.map (·.1)).Nodup) (L : Nat) (e : Nat × List τ) (he : e ∈ M) (ps : List Nat) :
    gather b L (ps.map fun pos => (e.1, pos)) = .ok (ps.map fun p => (e.2.drop p).take L).flatten := by
  obtain ⟨hs, k1, k2⟩ := holds_get h hnd e he
  induction ps with
  | nil => rfl
  | cons p ps ih => simp only [List.map_cons, gather, k1, window_fetch k2, ih, List.flatten_cons]

theorem sampleAll_ok {τ : Type} {b : Buffer τ} {M : List (Nat × List τ)} (h : List.Forall₂ (Holds b) b.eth M)
    (hnd : (M.map (·.1)).Nodup) (L : Nat) :
    let ws := (M.map (·.2)).flatMap (runs L)
    sampleAll b L = .ok (ws.length, ws.flatten) := by
  intro ws
  have hv := holds_valid L h
  set q := M.filter fun e => L ≤ e.2.length with hq
  have hqm : ∀ e ∈ q, e ∈ M ∧ L ≤ e.2.length := fun e he => by
    have := List.mem_filter.1 he; simpa using this
  have hg : gather b L (q.flatMap fun e => (List.range (e.2.length - L + 1)).map fun pos => (e.1, pos)) =
      .ok ((q.map (·.2)).flatMap (runs L)).flatten := by
    clear_value q
    clear hv hq
    induction q with
    | nil => rfl
    | cons e q ih =>
      rw [List.flatMap_cons, List.map_cons, List.flatMap_cons, List.flatten_append]
      obtain ⟨k1, k2⟩ := hqm e (by simp)
      apply gather_append
      · rw [gather_runs h hnd L e k1]
        unfold runs
        rw [Nat.sub_add_comm k2]
      · exact ih (fun e he => hqm e (by simp [he]))
  have hws : ws = (q.map (·.2)).flatMap (runs L) := by
    show (M.map (·.2)).flatMap (runs L) = _
    rw [hq]
    clear_value q
    clear hg hqm hv hq h hnd
    induction M with
    | nil => rfl
    | cons e M ih =>
      rw [List.map_cons, List.flatMap_cons, ih, List.filter_cons]
      by_cases hc : L ≤ e.2.length
      · simp only [hc, decide_true, if_true, List.map_cons, List.flatMap_cons]
      · simp only [hc, decide_false]
        have : runs L e.2 = [] := by
          unfold runs
          rw [show e.2.length + 1 - L = 0 by omega]; rfl
        rw [this]; rfl
  have hlen : (q.flatMap fun e => (List.range (e.2.length - L + 1)).map fun pos => (e.1, pos)).length = ws.length := by
    rw [hws]
    clear_value q
    clear hg hws hv hq
    induction q with
    | nil => rfl
    | cons e q ih =>
      rw [List.flatMap_cons, List.map_cons, List.flatMap_cons, List.length_append, List.length_append,
        ih (fun e he => hqm e (by simp [he]))]
      congr 1
      have := (hqm e (by simp)).2
      simp [runs]
      omega
  simp only [sampleAll, hv, allStarts_ok h hnd L q (fun e he => (hqm e he).1), hg, hlen, hws]

/-- Cutting the concatenation of pieces of length `L` gives the pieces back. -/
theorem postProcess_flatten {α : Type} (L : Nat) (hL : 1 ≤ L) (ws : List (List α)) (h : ∀ w ∈ ws, w.length = L) :
    postProcess L ws.flatten = ws := by
  have hlen : ws.flatten.length = ws.length * L := by
    induction ws with
    | nil => simp
    | cons w ws ih =>
      rw [List.flatten_cons, List.length_append, ih (fun w hw => h w (by simp [hw])), h w (by simp), List.length_cons]
      ring
  have hdiv : (ws.length * L + L - 1) / L = ws.length := by
    rw [show ws.length * L + L - 1 = L - 1 + ws.length * L by omega, Nat.add_mul_div_right _ _ (by omega),
      Nat.div_eq_of_lt (by omega), Nat.zero_add]
  unfold postProcess
  rw [hlen, hdiv]
  clear hlen hdiv
  induction ws with
  | nil => rfl
  | cons w ws ih =>
    rw [List.length_cons, List.range_succ_eq_map, List.map_cons, List.map_map]
    have hw := h w (by simp)
    congr 1
    · simp [← hw]
    · have := ih (fun w hw => h w (by simp [hw]))
      conv => rhs; rw [← this]
      apply List.map_congr_left
      intro i _
      simp only [Function.comp, List.flatten_cons]
      rw [Nat.succ_mul, Nat.add_comm, ← List.drop_drop]
      congr 2
      rw [← hw]
      exact List.drop_left

theorem IsRun.length {τ : Type} {L : Nat} {ep w : List τ} (h : IsRun L ep w) : w.length = L := by
  obtain ⟨p, h1, rfl⟩ := h
  simp; omega

theorem runs_isRun {τ : Type} {L : Nat} {ep w : List τ} (h : w ∈ runs L ep) : IsRun L ep w := by
  obtain ⟨p, h1, rfl⟩ := List.mem_map.1 h
  exact ⟨p, by have := List.mem_range.1 h1; omega, rfl⟩

/-! ### Prioritized buffer -/

/-- State of a prioritized RNN buffer that stored the episodes `eps`: every position of positive weight is the start of a
window that lies inside one episode. -/
structure RInv {τ : Type} (N L : Nat) (eps : List (List τ)) (b : PBuffer τ) : Prop where
  store : SInv N eps.flatten b.buf.storage
  maps : MapInv b.buf
  tree : TInv b.tree
  size : b.tree.size = N
  nonneg : ∀ i, i < N → 0 ≤ b.tree.weights.getD i 0
  start : ∀ i, i < N → 0 < b.tree.weights.getD i 0 → ∃ k, k % N = i ∧ k < eps.flatten.length ∧
    eps.flatten.length ≤ k + N ∧ ∃ P ep S, eps = P ++ ep :: S ∧ P.flatten.length ≤ k ∧
      k + L ≤ P.flatten.length + ep.length

theorem RInv.new (τ : Type) {N : Nat} (hN : 1 ≤ N) (L : Nat) (beta inc : ℚ) :
    RInv N L ([] : List (List τ)) (PBuffer.new τ N beta inc) := by
  refine ⟨SInv.new τ hN, MapInv.new τ N, TInv.new hN, rfl, ?_, ?_⟩
  · intro i _; simp only [PBuffer.new, WeightTree.new, getD_replicate_zero]; exact le_rfl
  · intro i _ h; simp only [PBuffer.new, WeightTree.new, getD_replicate_zero, lt_irrefl] at h

theorem RInv.clear {τ : Type} {N L : Nat} {eps : List (List τ)} {b : PBuffer τ} (h : RInv N L eps b) :
    RInv N L ([] : List (List τ)) b.clear := by
  refine ⟨h.store.clear, h.maps.clear, ?_, h.store.max, ?_, ?_⟩
  · show TInv (WeightTree.new b.buf.storage.maxSize)
    rw [h.store.max]; exact TInv.new h.store.pos
  · intro i _; simp only [PBuffer.clear, WeightTree.new, getD_replicate_zero]; exact le_rfl
  · intro i _ h; simp only [PBuffer.clear, WeightTree.new, getD_replicate_zero, lt_irrefl] at h

theorem storePriorities_ok {norm : ℚ → ℚ} (hnorm : ∀ p, 0 ≤ norm p) (leafMax : ℚ) (L len : Nat) (hL : 1 ≤ L)
    (pr : Option (List ℚ)) (nd : Bool) (hpr : ∀ ps, pr = some ps → ps.length = len ∧ (len < L → nd = true)) :
    ∃ ws, storePriorities norm leafMax L len pr nd = .ok ws ∧ ws.length = len ∧
      ∀ j w, ws[j]? = some w → 0 ≤ w ∧ (0 < w → j + L ≤ len) := by
  cases pr with
  | none =>
    refine ⟨_, rfl, by simp, ?_⟩
    intro j w hw
    rw [List.getElem?_map] at hw
    by_cases hj : j < len
    · rw [List.getElem?_range hj] at hw
      simp only [Option.map_some, Option.some.injEq] at hw
      subst hw
      by_cases hc : j + L ≤ len
      · rw [if_pos hc]; exact ⟨hnorm _, fun _ => hc⟩
      · rw [if_neg hc]; exact ⟨le_rfl, fun h => absurd h (lt_irrefl _)⟩
    · rw [List.getElem?_eq_none (by simpa using hj)] at hw
      simp at hw
  | some ps =>
    obtain ⟨hl, hnd⟩ := hpr ps rfl
    by_cases hc : len < L
    · refine ⟨ps.map fun _ => 0, by simp [storePriorities, hc, hnd hc], by simp [hl], ?_⟩
      intro j w hw
      rw [List.getElem?_map] at hw
      cases hp : ps[j]? with
      | none => rw [hp] at hw; simp at hw
      | some p =>
        rw [hp] at hw
        simp only [Option.map_some, Option.some.injEq] at hw
        subst hw
        exact ⟨le_rfl, fun h => absurd h (lt_irrefl _)⟩
    · refine ⟨(ps.map norm).take (len - L + 1) ++ ((ps.map norm).drop (len - L + 1)).map fun _ => 0,
        by simp only [storePriorities, hc, if_false], by simp [hl]; omega, ?_⟩
      intro j w hw
      by_cases hj : j < len - L + 1
      · rw [List.getElem?_append_left (by simp [hl]; omega), List.getElem?_take, if_pos hj,
          List.getElem?_map] at hw
        cases hp : ps[j]? with
        | none => rw [hp] at hw; simp at hw
        | some p =>
          rw [hp] at hw
          simp only [Option.map_some, Option.some.injEq] at hw
          subst hw
          exact ⟨hnorm _, fun _ => by omega⟩
      · rw [List.getElem?_append_right (by simp [hl]; omega), List.getElem?_map] at hw
        obtain ⟨x, -, rfl⟩ := Option.map_eq_some_iff.1 hw
        exact ⟨le_rfl, fun h => absurd h (lt_irrefl _)⟩

theorem foldl_at (i : Nat) : ∀ (is : List Nat) (ws : List ℚ) (j : Nat), is.Nodup → is[j]? = some i →
    ws.length = is.length → ∀ x, ∃ w, ws[j]? = some w ∧
    (is.zip ws).foldl (fun x p => if p.1 = i then p.2 else x) x = w := by
  intro is
  induction is with
  | nil => intro ws j _ h; simp at h
  | cons k is ih =>
    intro ws j hnd hj hl x
    cases ws with
    | nil => simp at hl
    | cons w ws =>
      rw [List.nodup_cons] at hnd
      rw [List.zip_cons_cons, List.foldl_cons]
      cases j with
      | succ j =>
        obtain ⟨w', h1, h2⟩ := ih ws j hnd.2 (by simpa using hj) (by simpa using hl) (if k = i then w else x)
        exact ⟨w', by simpa using h1, h2⟩
      | zero =>
        simp only [List.getElem?_cons_zero, Option.some.injEq] at hj
        subst hj
        refine ⟨w, rfl, ?_⟩
        rw [foldl_last_of_not_mem]
        · simp
        · rw [List.map_fst_zip (by simp at hl; omega)]; exact hnd.1

theorem RInv.storeEpisode {ι τ : Type} {N L : Nat} {conv : ι → Except Err τ} {norm : ℚ → ℚ} (hnorm : ∀ p, 0 ≤ norm p)
    {eps : List (List τ)} {b : PBuffer τ} (h : RInv N L eps b) (hL : 1 ≤ L) (ep : List ι) (pr : Option (List ℚ)) (nd : Bool)
    (hle : ep.length ≤ N) (hpr : ∀ ps, pr = some ps → ps.length = ep.length ∧ (ep.length < L → nd = true)) :
    RInv N L (eps ++ [Prio.Spec.accepted conv ep]) (storeEpisode conv norm L b ep pr nd).1 := by
  have hpos := h.store.pos
  -- adding an empty episode changes nothing
  have hnil : RInv N L (eps ++ [[]]) b := by
    have hf : (eps ++ [[]]).flatten = eps.flatten := by simp
    refine ⟨by rw [hf]; exact h.store, h.maps, h.tree, h.size, h.nonneg, ?_⟩
    intro i hi hw
    obtain ⟨k, k1, k2, k3, P, e, S, k4, k5, k6⟩ := h.start i hi hw
    rw [hf]
    exact ⟨k, k1, k2, k3, P, e, S ++ [[]], by rw [k4]; simp, k5, k6⟩
  by_cases h0 : ep = []
  · subst h0
    have e1 : Rnn.storeEpisode conv norm L b [] pr nd = (b, .error .value) := rfl
    have e2 : Prio.Spec.accepted conv ([] : List ι) = [] := rfl
    rw [e1, e2]; exact hnil
  · cases hc : ep.mapM conv with
    | error e =>
      have e1 : Rnn.storeEpisode conv norm L b ep pr nd
          = ({ b with buf := { b.buf with counter := b.buf.counter + 1 } }, .error e) := by
        simp only [Rnn.storeEpisode, storeEpisode_reject conv b.buf ep e h0 hc]
      have e2 : Prio.Spec.accepted conv ep = [] := by simp only [Prio.Spec.accepted, hc]
      rw [e1, e2]
      exact ⟨hnil.store, hnil.maps.counter, hnil.tree, hnil.size, hnil.nonneg, hnil.start⟩
    | ok ys =>
      have e2 : Prio.Spec.accepted conv ep = ys := by simp only [Prio.Spec.accepted, hc]
      rw [e2]
      have hlen := mapM_length conv ep ys hc
      obtain ⟨b', g1, g2, g3, g4, g5, -⟩ := storeEpisode_map conv h.store h.maps ep ys h0 hc hle
      have g5' : b'.eth.get? (b'.counter - 1) = some (slots N eps.flatten.length ys.length) := by
        rw [g4]; exact g5
      obtain ⟨ws, w1, w2, w3⟩ := storePriorities_ok hnorm b.tree.leafMax L ep.length hL pr nd hpr
      have hwl : ws.length = (slots N eps.flatten.length ys.length).length := by simp; omega
      have hin : ∀ i ∈ slots N eps.flatten.length ys.length, i < b.tree.size := by
        intro i hi
        obtain ⟨k, _, _, rfl⟩ := mem_slots.1 hi
        rw [h.size]; exact Nat.mod_lt _ hpos
      obtain ⟨t', k1, k2, k3, -, k5⟩ := updateLeafBatch_spec h.tree ws _ hwl hin
      have e1 : Rnn.storeEpisode conv norm L b ep pr nd = ({ b with buf := b', tree := t' }, .ok ()) := by
        simp only [Rnn.storeEpisode, g1, g5', w1, k1]
      rw [e1]
      have hff : (eps ++ [ys]).flatten = eps.flatten ++ ys := by simp
      have hnd := slots_nodup (N := N) (s := eps.flatten.length) (len := ys.length) (by omega)
      -- the new weights
      have hnew : ∀ i, i < N → (∃ j w, j < ys.length ∧ (eps.flatten.length + j) % N = i ∧ ws[j]? = some w ∧
            t'.weights.getD i 0 = w) ∨
          (i ∉ slots N eps.flatten.length ys.length ∧ t'.weights.getD i 0 = b.tree.weights.getD i 0) := by
        intro i hi
        by_cases hm : i ∈ slots N eps.flatten.length ys.length
        · left
          obtain ⟨j, hj⟩ := List.mem_iff_getElem?.1 hm
          obtain ⟨w, q1, q2⟩ := foldl_at i _ ws j hnd hj hwl (b.tree.weights.getD i 0)
          have hjl : j < ys.length := by
            have := (List.getElem?_eq_some_iff.1 hj).1
            simpa using this
          refine ⟨j, w, hjl, ?_, q1, ?_⟩
          · have : (slots N eps.flatten.length ys.length)[j]? = some ((eps.flatten.length + j) % N) := by
              simp [slots, List.getElem?_map, List.getElem?_range', hjl]
            rw [this] at hj
            exact Option.some.inj hj
          · rw [k5 i (by rw [h.size]; exact hi), q2]
        · right
          refine ⟨hm, ?_⟩
          rw [k5 i (by rw [h.size]; exact hi), foldl_last_of_not_mem]
          rw [List.map_fst_zip (by omega)]; exact hm
      refine ⟨by rw [hff]; exact g2, g3, k2, by rw [← h.size]; exact k3, ?_, ?_⟩
      · intro i hi
        simp only
        rcases hnew i hi with ⟨j, w, -, -, q1, q2⟩ | ⟨-, q⟩
        · rw [q2]; exact (w3 j w q1).1
        · rw [q]; exact h.nonneg i hi
      · intro i hi hw
        simp only at hw
        rw [hff, List.length_append]
        rcases hnew i hi with ⟨j, w, q0, q00, q1, q2⟩ | ⟨hm, q⟩
        · rw [q2] at hw
          have := (w3 j w q1).2 hw
          exact ⟨eps.flatten.length + j, q00, by omega, by omega, eps, ys, [], by simp, by omega, by omega⟩
        · rw [q] at hw
          obtain ⟨k, p1, p2, p3, P, e, S, p4, p5, p6⟩ := h.start i hi hw
          refine ⟨k, p1, by omega, ?_, P, e, S ++ [ys], by rw [p4]; simp, p5, p6⟩
          by_contra hlt
          apply hm
          rw [mem_slots]
          exact ⟨k + N, by omega, by omega, by rw [Nat.add_mod_right, p1]⟩

theorem RInv.sum_nonneg {τ : Type} {N L : Nat} {eps : List (List τ)} {b : PBuffer τ} (h : RInv N L eps b) :
    0 ≤ b.tree.weightSum := by
  rw [h.tree.weightSum_eq]
  apply List.sum_nonneg
  intro x hx
  obtain ⟨i, hi, rfl⟩ := List.mem_map.1 hx
  exact h.nonneg i (by rw [← h.size]; exact List.mem_range.1 hi)

theorem sampleIndex_ok' {τ : Type} (pw : ℚ → ℚ → ℚ) {N L : Nat} {eps : List (List τ)} {b : PBuffer τ}
    (h : RInv N L eps b) (draws : List ℚ) (all : Option ℚ) :
    let is := (queries b.tree.weightSum draws).map (pick b.tree)
    b.sampleIndexAndWeight pw draws all =
      ({ b with currBeta := min 1 (b.currBeta + b.betaInc) },
       .ok (shape is, isWeights pw b.buf.storage.len (orSum all b.tree.weightSum) b.currBeta
          (is.map fun i => b.tree.weights.getD i 0))) := by
  intro is
  have hq := queries_bounds h.sum_nonneg draws
  have hnn : ∀ i, i < b.tree.size → 0 ≤ b.tree.weights.getD i 0 := by rw [h.size]; exact h.nonneg
  have h1 : b.tree.findLeafIndex (queries b.tree.weightSum draws) = .ok (shape is) := by
    simp only [WeightTree.findLeafIndex, findAll_ok h.tree hnn _ hq]
    rfl
  have h2 : b.tree.leafWeight (is.map Int.ofNat) = .ok (shape (is.map fun i => b.tree.weights.getD i 0)) := by
    apply leafWeight_ok h.tree
    intro i hi
    obtain ⟨q, hq', rfl⟩ := List.mem_map.1 hi
    exact (pick_spec h.tree hnn (hq q hq').1 (hq q hq').2).2.1
  simp only [PBuffer.sampleIndexAndWeight, h1, flat_shape, h2]

theorem sampleBatch_state {τ : Type} (pw : ℚ → ℚ → ℚ) {N L : Nat} {eps : List (List τ)} {b : PBuffer τ}
    (h : RInv N L eps b) (draws : List ℚ) : ∃ c, (sampleBatch pw L b draws).1 = { b with currBeta := c } := by
  unfold sampleBatch
  split
  · exact ⟨b.currBeta, rfl⟩
  · rw [sampleIndex_ok' pw h draws none]
    simp only
    split
    · exact ⟨_, rfl⟩
    · exact ⟨_, rfl⟩

theorem queries_pos {s : ℚ} (hs : 1 / 1000000 < s) (draws : List ℚ) (hd : ∀ u ∈ draws, 0 < u ∧ u < 1) :
    ∀ q ∈ queries s draws, 0 < q := by
  intro q hq
  unfold queries at hq
  rw [List.mem_mapIdx] at hq
  obtain ⟨i, hi, rfl⟩ := hq
  have h0 : 0 < s := lt_trans (by norm_num) hs
  have hl : (0 : ℚ) < draws.length := by exact_mod_cast (by omega : 0 < draws.length)
  have hseg : 0 < s / draws.length := div_pos h0 hl
  have hu := (hd _ (List.getElem_mem hi)).1
  have hpos : 0 < draws[i] * (s / draws.length) + i * (s / draws.length) :=
    add_pos_of_pos_of_nonneg (mul_pos hu hseg) (mul_nonneg (Nat.cast_nonneg _) hseg.le)
  unfold npClip
  apply lt_min
  · exact lt_max_of_lt_left hpos
  · apply lt_max_of_lt_left; linarith

theorem fetch_append {τ : Type} (b : Buffer τ) (s t : List Nat) (xs : List τ) (hs : b.fetch s = .ok xs) :
    b.fetch (s ++ t) = match b.fetch t with
      | .error e => .error e
      | .ok ys => .ok (xs ++ ys) := by
  induction s generalizing xs with
  | nil =>
    simp only [Buffer.fetch, Except.ok.injEq] at hs
    subst hs
    rw [List.nil_append]
    cases b.fetch t <;> rfl
  | cons k s ih =>
    rw [List.cons_append]
    simp only [Buffer.fetch] at hs ⊢
    cases h1 : b.storage.getItem k with
    | error e => rw [h1] at hs; cases hs
    | ok x =>
      rw [h1] at hs
      simp only at hs ⊢
      cases h2 : b.fetch s with
      | error e => rw [h2] at hs; cases hs
      | ok zs =>
        rw [h2] at hs
        simp only [Except.ok.injEq] at hs
        subst hs
        rw [ih zs h2]
        cases b.fetch t <;> rfl

theorem fetch_error {τ : Type} (b : Buffer τ) (ks : List Nat) : (∃ k ∈ ks, b.storage.data.length ≤ k) →
    b.fetch ks = .error .index := by
  induction ks with
  | nil => rintro ⟨k, hk, -⟩; simp at hk
  | cons k ks ih =>
    rintro ⟨j, hj, hlt⟩
    simp only [Buffer.fetch, Storage.getItem]
    by_cases hk : b.storage.data.length ≤ k
    · rw [List.getElem?_eq_none hk]
    · rw [List.getElem?_eq_getElem (by omega)]
      simp only
      rcases List.mem_cons.1 hj with rfl | hj
      · exact absurd hlt hk
      · rw [ih ⟨j, hj, hlt⟩]

/-- The window starting at a position of positive weight. -/
theorem RInv.window {τ : Type} {N L : Nat} {eps : List (List τ)} {b : PBuffer τ} (h : RInv N L eps b) {i : Nat}
    (hi : i < N) (hw : 0 < b.tree.weights.getD i 0) :
    (∃ ep ∈ eps, ∃ w, IsRun L ep w ∧ b.buf.fetch (List.range' i L) = .ok w) ∨
    (N < eps.flatten.length ∧ ∃ k ∈ List.range' i L, b.buf.storage.data.length ≤ k) := by
  obtain ⟨k, p1, p2, p3, P, ep, S, p4, p5, p6⟩ := h.start i hi hw
  have hlen := h.store.len
  have hfl : eps.flatten = P.flatten ++ (ep ++ S.flatten) := by rw [p4]; simp
  have hfl2 : eps.flatten.length = P.flatten.length + (ep.length + S.flatten.length) := by rw [hfl]; simp
  by_cases hfit : i + L ≤ N
  · left
    refine ⟨ep, by rw [p4]; simp, _, ⟨k - P.flatten.length, by omega, rfl⟩, ?_⟩
    apply fetch_eq
    apply List.ext_getElem?
    intro j
    rw [List.getElem?_map, List.getElem?_map, List.getElem?_take, List.getElem?_drop]
    by_cases hj : j < L
    · rw [List.getElem?_range' hj, if_pos hj]
      simp only [Option.map_some, Nat.one_mul]
      have hmod : (k + j) % N = i + j := by
        rw [Nat.add_mod, p1, Nat.mod_eq_of_lt (show j < N by omega), Nat.mod_eq_of_lt (by omega)]
      rw [← hmod, h.store.get (k + j) (by omega) (by omega), hfl, List.getElem?_append_right (by omega),
        List.getElem?_append_left (by omega)]
      rw [show k + j - P.flatten.length = k - P.flatten.length + j by omega]
      rw [List.getElem?_eq_getElem (by omega)]
      rfl
    · rw [List.getElem?_eq_none (by simpa using hj), if_neg hj]; rfl
  · right
    by_cases hN : N < eps.flatten.length
    · exact ⟨hN, N, by rw [List.mem_range']; exact ⟨N - i, by omega, by omega⟩, by omega⟩
    · exfalso
      rw [Nat.mod_eq_of_lt (by omega)] at p1
      omega

theorem RInv.windows {τ : Type} {N L : Nat} {eps : List (List τ)} {b : PBuffer τ} (h : RInv N L eps b) :
    ∀ is : List Nat, (∀ i ∈ is, i < N ∧ 0 < b.tree.weights.getD i 0) →
    (∃ ws : List (List τ), ws.length = is.length ∧ (∀ w ∈ ws, ∃ ep ∈ eps, IsRun L ep w) ∧
      b.buf.fetch (is.flatMap fun i => List.range' i L) = .ok ws.flatten) ∨
    (N < eps.flatten.length ∧ b.buf.fetch (is.flatMap fun i => List.range' i L) = .error .index) := by
  intro is
  induction is with
  | nil => intro _; exact Or.inl ⟨[], rfl, by simp, rfl⟩
  | cons i is ih =>
    intro hw
    rw [List.flatMap_cons]
    rcases h.window (hw i (by simp)).1 (hw i (by simp)).2 with ⟨ep, he, w, w1, w2⟩ | ⟨h1, k, hk, hk2⟩
    · rcases ih (fun i hi => hw i (by simp [hi])) with ⟨ws, q1, q2, q3⟩ | ⟨q1, q2⟩
      · left
        refine ⟨w :: ws, by simp [q1], ?_, by rw [fetch_append _ _ _ _ w2, q3]; rfl⟩
        intro v hv
        rcases List.mem_cons.1 hv with rfl | hv
        · exact ⟨ep, he, w1⟩
        · exact q2 v hv
      · right
        exact ⟨q1, by rw [fetch_append _ _ _ _ w2, q2]⟩
    · right
      exact ⟨h1, fetch_error _ _ ⟨k, by simp only [List.mem_append]; exact Or.inl hk, hk2⟩⟩

theorem Hist.inv {ι τ : Type} {conv : ι → Except Err τ} {norm : ℚ → ℚ} {pw : ℚ → ℚ → ℚ} {N L : Nat} {beta inc : ℚ}
    (hN : 1 ≤ N) (hL : 1 ≤ L) (hnorm : ∀ p, 0 ≤ norm p) {eps : List (List τ)} {b : PBuffer τ}
    (h : Hist conv norm pw N L beta inc eps b) : RInv N L eps b := by
  induction h with
  | new => exact RInv.new τ hN L beta inc
  | store ep pr nd _ hle hpr ih => exact ih.storeEpisode hnorm hL ep pr nd hle hpr
  | @sample eps b draws _ ih =>
    obtain ⟨c, hc⟩ := sampleBatch_state pw ih draws
    rw [hc]
    exact ⟨ih.store, ih.maps, ih.tree, ih.size, ih.nonneg, ih.start⟩
  | clear _ ih => exact ih.clear
  | @train eps b draws n batch index ws ps _ hd hs hres hlen ih =>
    obtain ⟨c, hc⟩ := sampleBatch_state pw ih draws
    have hnn : ∀ i, i < b.tree.size → 0 ≤ b.tree.weights.getD i 0 := by rw [ih.size]; exact ih.nonneg
    have hidx : index = (queries b.tree.weightSum draws).map (pick b.tree) := by
      unfold sampleBatch at hres
      split at hres
      · cases hres
      · rw [sampleIndex_ok' pw ih draws none] at hres
        simp only at hres
        split at hres
        · cases hres
        · simp only [flat_shape, Except.ok.injEq, Prod.mk.injEq, Option.some.injEq] at hres
          exact hres.2.2.1.symm
    have hin : ∀ i ∈ index, i < b.tree.size ∧ 0 < b.tree.weights.getD i 0 := by
      intro i hi
      rw [hidx] at hi
      obtain ⟨q, hq, rfl⟩ := List.mem_map.1 hi
      have h1 := queries_bounds ih.sum_nonneg draws q hq
      have h2 := queries_pos hs draws hd q hq
      exact ⟨(pick_spec ih.tree hnn h1.1 h1.2).2.1, pick_pos ih.tree hnn h2 h1.2⟩
    rw [hc]
    obtain ⟨t', k1, k2, k3, -, k5⟩ := updateLeafBatch_spec ih.tree (ps.map norm) index (by simp [hlen])
      (fun i hi => (hin i hi).1)
    have e1 : ({ b with currBeta := c } : PBuffer τ).updatePriority norm ps (index.map Int.ofNat) =
        ({ b with currBeta := c, tree := t' }, .ok ()) := by
      simp only [PBuffer.updatePriority, k1]
    rw [e1]
    have hnew : ∀ i, i < N → (i ∈ index ∧ ∃ p, t'.weights.getD i 0 = norm p) ∨
        t'.weights.getD i 0 = b.tree.weights.getD i 0 := by
      intro i hi
      rw [k5 i (by rw [ih.size]; exact hi)]
      have : ∀ (zs : List (Nat × ℚ)) (x : ℚ), (∀ z ∈ zs, ∃ p, z.2 = norm p) →
          (i ∈ zs.map (·.1) ∧ ∃ p, zs.foldl (fun x p => if p.1 = i then p.2 else x) x = norm p) ∨
          zs.foldl (fun x p => if p.1 = i then p.2 else x) x = x := by
        intro zs
        induction zs with
        | nil => intro x _; right; rfl
        | cons z zs ihz =>
          intro x hz
          rw [List.foldl_cons]
          rcases ihz (if z.1 = i then z.2 else x) (fun z hz' => hz z (by simp [hz'])) with ⟨m, p, e⟩ | e
          · left; exact ⟨by simp only [List.map_cons, List.mem_cons]; exact Or.inr m, p, e⟩
          · rw [e]
            by_cases hzi : z.1 = i
            · left
              obtain ⟨p, hp⟩ := hz z (by simp)
              exact ⟨by simp [hzi], p, by rw [if_pos hzi, hp]⟩
            · right; rw [if_neg hzi]
      have h3 := this (index.zip (ps.map norm)) (b.tree.weights.getD i 0) (by
        intro z hz
        obtain ⟨p, _, hp⟩ := List.mem_map.1 (List.of_mem_zip hz).2
        exact ⟨p, hp.symm⟩)
      rwa [List.map_fst_zip (by simp [hlen])] at h3
    refine ⟨ih.store, ih.maps, k2, by rw [← ih.size]; exact k3, ?_, ?_⟩
    · intro i hi
      simp only
      rcases hnew i hi with ⟨-, p, e⟩ | e
      · rw [e]; exact hnorm p
      · rw [e]; exact ih.nonneg i hi
    · intro i hi hw
      simp only at hw
      rcases hnew i hi with ⟨m, -⟩ | e
      · exact ih.start i hi (hin i m).2
      · rw [e] at hw; exact ih.start i hi hw

/-! ### Constructors -/

theorem construct_dup (c : Ctor) (cs : List Ctor) (kw : List String) (h : ¬ kw.Nodup) :
    construct (c :: cs) kw = .error .type := by
  cases cs <;> simp [construct, h]

theorem construct_ok (c d : Ctor) (cs : List Ctor) (kw : List String) (h1 : kw.Nodup) (h2 : ∀ r ∈ c.required, r ∈ kw) :
    construct (c :: d :: cs) kw =
      construct (d :: cs) (c.explicit ++ kw.filter fun k => k ∉ c.required ∧ k ∉ c.optional) := by
  conv => lhs; unfold construct
  rw [if_neg (not_not.2 h1), if_neg (not_not.2 h2)]

theorem construct_step (c d : Ctor) (cs : List Ctor) (kw : List String) :
    construct (c :: d :: cs) kw = .error .type ∨ construct (c :: d :: cs) kw =
      construct (d :: cs) (c.explicit ++ kw.filter fun k => k ∉ c.required ∧ k ∉ c.optional) := by
  by_cases h1 : kw.Nodup
  · by_cases h2 : ∀ r ∈ c.required, r ∈ kw
    · exact Or.inr (construct_ok c d cs kw h1 h2)
    · left
      unfold construct
      rw [if_neg (not_not.2 h1), if_pos h2]
  · exact Or.inl (construct_dup c _ kw h1)

/-- A keyword that is no parameter of a constructor but is written out in its call of the parent constructor. -/
theorem construct_collision (c d : Ctor) (cs : List Ctor) (kw : List String) (k : String) (h1 : k ∈ kw)
    (h2 : k ∉ c.required) (h3 : k ∉ c.optional) (h4 : k ∈ c.explicit) : construct (c :: d :: cs) kw = .error .type := by
  rcases construct_step c d cs kw with h | h
  · exact h
  · rw [h]
    apply construct_dup
    intro hnd
    rw [List.nodup_append] at hnd
    exact hnd.2.2 k h4 k (List.mem_filter.2 ⟨h1, by simp [h2, h3]⟩) rfl

end Machin.Rnn
