import Verif.Ars.Update
import Verif.Ars.Props
import Verif.Algo.LemmasValue
import Mathlib.Tactic.Ring
import Mathlib.Tactic.Linarith
import Mathlib.Tactic.FieldSimp
import Mathlib.Tactic.NormNum
import Mathlib.Tactic.Positivity

/-! # Properties of the ARS update: C144–C147 -/

namespace Machin.Ars

/-! ### C144: rewards reach the perturbation they were measured with -/

theorem pieces_plain : ∀ (l acc : List Char), '_' ∉ l → pieces acc l = [acc.reverse ++ l]
  | [], acc, _ => by simp [pieces]
  | c :: cs, acc, h => by
    have hc : c ≠ '_' := fun e => h (by simp [e])
    rw [pieces, if_neg hc, pieces_plain cs (c :: acc) fun e => h (by simp [e])]
    simp

theorem pieces_cut : ∀ (l acc rest : List Char), '_' ∉ l → pieces acc (l ++ '_' :: rest) = (acc.reverse ++ l) :: pieces [] rest
  | [], acc, rest, _ => by simp [pieces]
  | c :: cs, acc, rest, h => by
    have hc : c ≠ '_' := fun e => h (by simp [e])
    rw [List.cons_append, pieces, if_neg hc, pieces_cut cs (c :: acc) rest fun e => h (by simp [e])]
    simp

theorem repr_plain (n : Nat) : '_' ∉ (toString n).toList := by
  show '_' ∉ n.repr.toList
  rw [Nat.toList_repr]
  intro h
  have := Nat.isDigit_of_mem_toDigits (by decide) (by decide) h
  revert this; decide

theorem repr_toInt (n : Nat) : (toString n).toInt? = some (n : Int) := by
  apply String.toInt?_eq_some_of_toNat?_eq_some
  show n.repr.toNat? = some n
  simp

theorem parse_positive (n : Nat) : parseType ("positive_" ++ toString n) = .ok ((n : Int), true) := by
  have e : ("positive_" ++ toString n).toList = "positive".toList ++ '_' :: (toString n).toList := by
    rw [String.toList_append]; rfl
  unfold parseType
  rw [e, if_pos (by simp [List.isPrefixOf]), pieces_cut _ _ _ (by decide), pieces_plain _ _ (repr_plain n)]
  have h : String.ofList (([[].reverse ++ "positive".toList, [].reverse ++ (toString n).toList]).getD 1 []) = toString n := by
    show String.ofList (toString n).toList = _
    rw [String.ofList_toList]
  rw [h, repr_toInt]
  rfl

theorem parse_negative (n : Nat) : parseType ("negative_" ++ toString n) = .ok ((n : Int), false) := by
  have e : ("negative_" ++ toString n).toList = "negative".toList ++ '_' :: (toString n).toList := by
    rw [String.toList_append]; rfl
  unfold parseType
  rw [e, if_pos (by simp [List.isPrefixOf]), pieces_cut _ _ _ (by decide), pieces_plain _ _ (repr_plain n)]
  have h : String.ofList (([[].reverse ++ "negative".toList, [].reverse ++ (toString n).toList]).getD 1 []) = toString n := by
    show String.ofList (toString n).toList = _
    rw [String.ofList_toList]
  rw [h, repr_toInt]
  rfl

theorem ne_original (a b : String) (h : a.toList.head? ≠ some 'o') (h' : a.toList ≠ []) : a ++ b ≠ "original" := by
  intro e
  have e := congrArg (fun s => s.toList.head?) e
  simp only [String.toList_append, List.head?_append] at e
  obtain ⟨c, cs, hc⟩ := List.exists_cons_of_ne_nil h'
  rw [hc] at e h
  exact h (by simpa using e)

variable {K : Type}

theorem find_rollout (w : List (Entry K)) (hw : (w.map (·.r)).Nodup) (e : Entry K) (he : e ∈ w) :
    (w.find? fun x => decide ((x.r : Int) = (e.r : Int))) = some e := by
  induction w with
  | nil => simp at he
  | cons x xs ih =>
    simp only [List.map_cons, List.nodup_cons] at hw
    rw [List.find?_cons]
    by_cases h : x = e
    · subst h; simp
    · have hx : e ∈ xs := by simpa [Ne.symm h] using he
      have : x.r ≠ e.r := fun hr => hw.1 (by rw [hr]; exact List.mem_map_of_mem hx)
      have : decide ((x.r : Int) = (e.r : Int)) = false := by simpa using this
      rw [this]
      exact ih hw.2 hx

theorem find_none (w : List (Entry K)) (n : Nat) (h : ∀ e ∈ w, e.r ≠ n) : (w.find? fun x => decide ((x.r : Int) = (n : Int))) = none := by
  rw [List.find?_eq_none]
  intro x hx
  simpa using h x hx

/-- C144: the types that a process reports are those of its rollouts, each with both signs; the actor of a type is the network perturbed in this
direction, and a stored reward is appended to the list of this rollout and sign, and to no other. -/
theorem C144_types (θ : Params K) (w : List (Entry K)) (hw : (w.map (·.r)).Nodup) :
    (∀ type, type ∈ actorTypes w ↔ ∃ e ∈ w, type = "negative_" ++ toString e.r ∨ type = "positive_" ++ toString e.r) ∧
    ∀ e ∈ w, network θ w ("positive_" ++ toString e.r) = .ok e.pos ∧ network θ w ("negative_" ++ toString e.r) = .ok e.neg ∧
      ∀ reward : K,
        storeReward w reward ("positive_" ++ toString e.r) = .ok (w.map fun x => if x.r = e.r then { x with posR := x.posR ++ [reward] } else x) ∧
        storeReward w reward ("negative_" ++ toString e.r) = .ok (w.map fun x => if x.r = e.r then { x with negR := x.negR ++ [reward] } else x) := by
  refine ⟨fun type => by simp [actorTypes], ?_⟩
  intro e he
  have hf := find_rollout w hw e he
  have n1 := ne_original "positive_" (toString e.r) (by decide) (by decide)
  have n2 := ne_original "negative_" (toString e.r) (by decide) (by decide)
  refine ⟨?_, ?_, ?_⟩
  · simp only [network, if_neg n1, parse_positive, hf, if_true]
  · simp only [network, if_neg n2, parse_negative, hf]
    rfl
  · intro reward
    constructor
    · simp only [storeReward, parse_positive, hf]
      simp
    · simp only [storeReward, parse_negative, hf]
      simp

/-- C144: the unperturbed network is used for `"original"`; a rollout of another process gives a `KeyError`; a type that does not begin with one of the
two words gives a `ValueError`, also `"original"` when a reward is stored. -/
theorem C144_other (θ : Params K) (w : List (Entry K)) :
    network θ w "original" = .ok θ ∧
    (∀ n : Nat, (∀ e ∈ w, e.r ≠ n) → ∀ type ∈ ["positive_" ++ toString n, "negative_" ++ toString n],
      network θ w type = .error .key ∧ ∀ reward : K, storeReward w reward type = .error .key) ∧
    ∀ type : String, ¬ "positive_".toList <+: type.toList → ¬ "negative_".toList <+: type.toList →
      (type ≠ "original" → network θ w type = .error .value) ∧ ∀ reward : K, storeReward w reward type = .error .value := by
  refine ⟨rfl, ?_, ?_⟩
  · intro n hn type ht
    have hf := find_none w n hn
    simp only [List.mem_cons, List.not_mem_nil, or_false] at ht
    rcases ht with rfl | rfl
    · constructor
      · rw [network, if_neg (ne_original "positive_" (toString n) (by decide) (by decide)), parse_positive]
        simp only [hf]
      · intro reward
        rw [storeReward, parse_positive]
        simp only [hf]
    · constructor
      · rw [network, if_neg (ne_original "negative_" (toString n) (by decide) (by decide)), parse_negative]
        simp only [hf]
      · intro reward
        rw [storeReward, parse_negative]
        simp only [hf]
  · intro type h1 h2
    have hp : parseType type = .error .value := by
      rw [parseType, if_neg]
      rw [Bool.or_eq_true, List.isPrefixOf_iff_prefix, List.isPrefixOf_iff_prefix]
      exact fun h => h.elim h1 h2
    refine ⟨fun hne => ?_, fun reward => ?_⟩
    · rw [network, if_neg hne, hp]
    · rw [storeReward, hp]

/-- C144: what `_generate_parameter` makes: one entry per rollout of the process, in order, without rewards; in every parameter, the positive network
differs from the actor by `+δ` and the negative one by `-δ`, where `δ` is the part of the noise array that begins at the recorded index. -/
theorem C144_generated [AddGroup K] (noise : List K) (θ : Params K) (draw : Nat → String → Nat → Nat) (hdraw : ∀ r name n, 0 < n → draw r name n < n)
    (rollouts : List Nat) :
    ((∀ p ∈ θ, p.2.length ≤ noise.length) → ∃ w, generate noise θ draw rollouts = .ok w) ∧
    ∀ w, generate noise θ draw rollouts = .ok w → w.map (·.r) = rollouts ∧
      ∀ e ∈ w, e.posR = [] ∧ e.negR = [] ∧ e.idx.length = θ.length ∧ ∀ (k : Nat) (name : String) (v : List K), θ[k]? = some (name, v) →
        ∃ (i : Nat) (p q : List K), e.idx[k]? = some (name, i) ∧ e.pos[k]? = some (name, p) ∧ e.neg[k]? = some (name, q) ∧
          i + v.length ≤ noise.length ∧ p.length = v.length ∧ q.length = v.length ∧
          ∀ (j : Nat) (x δ : K), v[j]? = some x → noise[i + j]? = some δ → p[j]? = some (x + δ) ∧ q[j]? = some (x - δ) := by
  constructor
  · intro h
    apply Algo.mapE_total
    intro r _
    obtain ⟨ss, hss⟩ := Algo.mapE_total (f := fun p : String × List K => sample noise (draw r p.1) p.2.length) (l := θ) (by
      intro p hp
      obtain ⟨i, sl, hs, _⟩ := (C54_noise noise (draw r p.1) (hdraw r p.1) p.2.length).1 (h p hp)
      exact ⟨(i, sl), hs⟩)
    exact ⟨_, by simp only [perturb, hss]; rfl⟩
  · intro w hw
    obtain ⟨hl, hf⟩ := Algo.mapE_ok hw
    have key : ∀ (n r : Nat) (e : Entry K), rollouts[n]? = some r → w[n]? = some e → perturb noise θ (draw r) r = .ok e := hf
    constructor
    · apply List.ext_getElem (by simpa using hl)
      intro n h1 h2
      have h1' : n < w.length := by simpa using h1
      have := key n rollouts[n] w[n] (List.getElem?_eq_getElem h2) (List.getElem?_eq_getElem h1')
      rw [List.getElem_map]
      unfold perturb at this
      split at this
      · cases this
      · simp only [Except.ok.injEq] at this
        rw [← this]
    · intro e he
      obtain ⟨n, hn, rfl⟩ := List.getElem_of_mem he
      have := key n (rollouts[n]'(by omega)) w[n] (List.getElem?_eq_getElem _) (List.getElem?_eq_getElem hn)
      generalize w[n] = e at this
      generalize rollouts[n]'(by omega) = r at this
      unfold perturb at this
      split at this
      · cases this
      · rename_i ss hss
        cases this
        obtain ⟨hl', hf'⟩ := Algo.mapE_ok hss
        refine ⟨rfl, rfl, by simp [hl'], ?_⟩
        intro k name v hk
        have hkl : k < ss.length := by
          rw [hl']
          exact (List.getElem?_eq_some_iff.1 hk).1
        have hsk : ss[k]? = some ss[k] := List.getElem?_eq_getElem hkl
        have hs := hf' k (name, v) ss[k] hk hsk
        have hle : v.length ≤ noise.length := by
          by_contra hc
          rw [(C54_noise noise (draw r name) (hdraw r name) v.length).2 (by omega)] at hs
          cases hs
        obtain ⟨i, sl, hi, h1, h2, h3⟩ := (C54_noise noise (draw r name) (hdraw r name) v.length).1 hle
        dsimp only at hs
        rw [hi] at hs
        simp only [Except.ok.injEq] at hs
        refine ⟨i, v.zipWith (· + ·) sl, v.zipWith (· - ·) sl, ?_, ?_, ?_, h1, by simp [h2], by simp [h2], ?_⟩
        · simp [List.getElem?_zipWith, hk, hsk, ← hs]
        · simp [List.getElem?_zipWith, hk, hsk, ← hs]
        · simp [List.getElem?_zipWith, hk, hsk, ← hs]
        · intro j x δ hx hδ
          have hjl : j < v.length := (List.getElem?_eq_some_iff.1 hx).1
          have hslj : sl[j]? = some δ := by
            rw [h3, get, List.getElem?_take_of_lt hjl, List.getElem?_drop]
            exact hδ
          simp [List.getElem?_zipWith, hx, hslj]

example : (generate [1, 2, 3, 4] [("w", [10, 20]), ("b", [5])] (fun _ _ n => n - 1) [0, 1]).map (fun w => w.map fun e => (e.r, e.idx, e.pos, e.neg)) =
    .ok [(0, [("w", 2), ("b", 3)], [("w", [13, 24]), ("b", [9])], [("w", [7, 16]), ("b", [(1 : Int)])]),
      (1, [("w", 2), ("b", 3)], [("w", [13, 24]), ("b", [9])], [("w", [7, 16]), ("b", [1])])] := by rfl

/-- C144: what the manager collects: if the members of the group have the entries of their rollouts, item `r` consists of the average rewards and the
noise indexes of rollout `r`. It fails with an `AssertionError` exactly if a reward is missing for a network. -/
theorem C144_gathered [Field K] (rolloutNum : Nat) (members : List (List (Entry K))) (hne : members ≠ [])
    (hr : ∀ (k : Nat) (w : List (Entry K)), members[k]? = some w → w.map (·.r) = localRollouts rolloutNum members.length k) :
    ((∃ w ∈ members, ∃ e ∈ w, e.posR = [] ∨ e.negR = []) ↔ gather members = .error .assertion) ∧
    ∀ rs, gather members = .ok rs → rs.length = rolloutNum ∧
      ∀ w ∈ members, ∀ e ∈ w, rs[e.r]? = some (e.posR.sum / e.posR.length, e.negR.sum / e.negR.length, e.idx) := by
  have hflat : members.flatten.map (·.r) = List.range rolloutNum := by
    rw [← C54_partition rolloutNum members.length (List.length_pos_iff.2 hne), List.map_flatten, List.flatMap_def]
    congr 1
    apply List.ext_getElem (by simp)
    intro k h1 h2
    have hk : k < members.length := by simpa using h1
    rw [List.getElem_map, List.getElem_map, hr k members[k] (List.getElem?_eq_getElem hk)]
    simp
  have hres : ∀ e : Entry K, (e.posR = [] ∨ e.negR = [] → result e = .error .assertion) ∧
      (¬ (e.posR = [] ∨ e.negR = []) → result e = .ok (e.posR.sum / e.posR.length, e.negR.sum / e.negR.length, e.idx)) := by
    intro e
    constructor
    · intro h
      rw [result, if_pos]
      rcases h with h | h <;> simp [h]
    · intro h
      rw [result, if_neg]
      · rfl
      · simpa [and_comm, not_or] using h
  have herr : ∀ l : List (Entry K), (∃ e ∈ l, e.posR = [] ∨ e.negR = []) ↔ Algo.mapE result l = .error .assertion := by
    intro l
    induction l with
    | nil => simp [Algo.mapE]
    | cons x xs ih =>
      by_cases hx : x.posR = [] ∨ x.negR = []
      · simp only [Algo.mapE, (hres x).1 hx]
        simp [hx]
      · simp only [List.mem_cons, exists_eq_or_imp, hx, false_or, ih, Algo.mapE, (hres x).2 hx]
        cases h : Algo.mapE result xs with
        | error e => simp
        | ok r => simp
  constructor
  · rw [gather, ← herr]
    constructor
    · rintro ⟨w, hw, e, he, h⟩
      exact ⟨e, List.mem_flatten.2 ⟨w, hw, he⟩, h⟩
    · rintro ⟨e, he, h⟩
      obtain ⟨w, hw, he⟩ := List.mem_flatten.1 he
      exact ⟨w, hw, e, he, h⟩
  · intro rs hrs
    obtain ⟨h1, h2⟩ := Algo.mapE_ok hrs
    have hlen : members.flatten.length = rolloutNum := by
      have := congrArg List.length hflat
      rw [List.length_map, List.length_range] at this
      exact this
    refine ⟨by rw [h1, hlen], ?_⟩
    intro w hw e he
    have hmem : e ∈ members.flatten := List.mem_flatten.2 ⟨w, hw, he⟩
    obtain ⟨n, hn, hne⟩ := List.getElem_of_mem hmem
    have hnr : e.r = n := by
      have : (members.flatten.map (·.r))[n]? = some e.r := by rw [List.getElem?_map, List.getElem?_eq_getElem hn, hne]; rfl
      rw [hflat] at this
      rw [List.getElem?_range (by omega)] at this
      simpa using this.symm
    have hrl : n < rs.length := by omega
    have := h2 n e rs[n] (by rw [List.getElem?_eq_getElem hn, hne]) (List.getElem?_eq_getElem hrl)
    rw [hnr, List.getElem?_eq_getElem hrl]
    by_cases hx : e.posR = [] ∨ e.negR = []
    · rw [(hres e).1 hx] at this; cases this
    · rw [(hres e).2 hx] at this
      simp only [Except.ok.injEq] at this
      rw [← this]

example : gather [[⟨0, [("w", 1)], [], [], [(1 : ℚ), 3], [0]⟩], [⟨1, [("w", 2)], [], [], [5], [7, 8]⟩]] =
    .ok [(2, 0, [("w", 1)]), (5, 15 / 2, [("w", 2)])] := by decide +kernel

end Machin.Ars
