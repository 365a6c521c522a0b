import Verif.Replay.Rounds
import Verif.Replay.Props

/-! # Property C05, continued: a buffer that is filled, sampled and cleared in rounds, as the on-policy algorithms do -/

namespace Machin.Replay

open Spec

namespace Spec

/-- The positions at which episodes stored one after the other begin. -/
def starts {τ : Type} : Nat → List (List τ) → List Nat
  | _, [] => []
  | s, e :: es => s :: starts (s + e.length) es

/-- Some episode of an earlier round began behind the end of every later round. -/
def Leftover {τ : Type} (rounds : List (List (List τ))) (last : List (List τ)) : Prop :=
  ∃ before r after, rounds = before ++ r :: after ∧ ∃ s ∈ starts 0 r, (∀ r' ∈ after, r'.flatten.length ≤ s) ∧ last.flatten.length ≤ s

end Spec

/-- Not a function of the code: store the episodes of a round, then clear the buffer, for every round. -/
def rounds {ι τ : Type} (conv : ι → Except Err τ) (b : Buffer τ) (rs : List (List (List ι))) : Buffer τ :=
  rs.foldl (fun b r => (b.run conv r).clear) b

/-- The handles left in the dictionaries. -/
def left {τ : Type} (acc : List (List Nat)) (rs : List (List (List τ))) : List (List Nat) :=
  rs.foldl (fun acc r => acc.filter (fun hs => hs.all fun h => decide (h ∉ List.range r.flatten.length)) ++ ranges 0 r) acc

theorem map_apart (H : List Nat) (E : Lay) :
    (apart H E).map (·.2) = (E.map (·.2)).filter fun hs => hs.all fun h => decide (h ∉ H) := by
  unfold apart
  rw [List.filter_map]
  rfl

theorem rounds_inv {ι τ : Type} {N : Nat} (conv : ι → Except Err τ) : ∀ (rs : List (List (List ι))) (E : Lay) (b : Buffer τ), LInv N E [] b →
    (∀ r ∈ rs, (accepted conv r).flatten.length ≤ N) →
    ∃ E', E'.map (·.2) = left (E.map (·.2)) (rs.map (accepted conv)) ∧ LInv N E' [] (rounds conv b rs)
  | [], E, b, hb, _ => ⟨E, rfl, hb⟩
  | r :: rs, E, b, hb, hle => by
    have hap : apart (List.range ([] : List (List τ)).flatten.length) E ++ [] = E := by simp [apart]
    obtain ⟨M, hM, hinv⟩ := LInv.round conv E r ([] : List (List τ)) [] b rfl (by rw [hap]; exact hb) (by simpa using hle r (by simp))
    obtain ⟨E', hE', hinv'⟩ := rounds_inv conv rs _ _ hinv.clear (fun r hr => hle r (by simp [hr]))
    refine ⟨E', ?_, hinv'⟩
    rw [hE', List.map_append, map_apart, hM]
    simp [left]

theorem mem_left {τ : Type} (hs : List Nat) (rs : List (List (List τ))) : ∀ acc, hs ∈ left acc rs ↔
    (hs ∈ acc ∧ ∀ r ∈ rs, ∀ h ∈ hs, r.flatten.length ≤ h) ∨
    ∃ before r after, rs = before ++ r :: after ∧ hs ∈ ranges 0 r ∧ ∀ r' ∈ after, ∀ h ∈ hs, r'.flatten.length ≤ h := by
  induction rs with
  | nil => intro acc; simp [left]
  | cons r rs ih =>
    intro acc
    have hstep : left acc (r :: rs) = left (acc.filter (fun hs => hs.all fun h => decide (h ∉ List.range r.flatten.length)) ++ ranges 0 r) rs := rfl
    rw [hstep, ih]
    constructor
    · rintro (⟨hmem, hall⟩ | ⟨bf, r', af, rfl, hr', haf⟩)
      · rcases List.mem_append.1 hmem with hmem | hmem
        · obtain ⟨h1, h2⟩ := List.mem_filter.1 hmem
          simp only [List.all_eq_true, decide_eq_true_eq, List.mem_range, Nat.not_lt] at h2
          refine .inl ⟨h1, ?_⟩
          intro r' hr'
          rcases List.mem_cons.1 hr' with rfl | hr'
          · exact h2
          · exact hall r' hr'
        · exact .inr ⟨[], r, rs, rfl, hmem, hall⟩
      · exact .inr ⟨r :: bf, r', af, rfl, hr', haf⟩
    · rintro (⟨hmem, hall⟩ | ⟨bf, r', af, heq, hr', haf⟩)
      · refine .inl ⟨List.mem_append_left _ (List.mem_filter.2 ⟨hmem, ?_⟩), fun r' hr' => hall r' (by simp [hr'])⟩
        simp only [List.all_eq_true, decide_eq_true_eq, List.mem_range, Nat.not_lt]
        exact hall r (by simp)
      · cases bf with
        | nil =>
          simp only [List.nil_append, List.cons.injEq] at heq
          obtain ⟨rfl, rfl⟩ := heq
          exact .inl ⟨List.mem_append_right _ hr', haf⟩
        | cons x bf =>
          simp only [List.cons_append, List.cons.injEq] at heq
          exact .inr ⟨bf, r', af, heq.2, hr', haf⟩

/-- A non-empty episode begins at `s` and its handles are the positions from `s` on. -/
theorem ranges_starts {τ : Type} (es : List (List τ)) (hne : ∀ e ∈ es, e ≠ []) : ∀ s,
    (∀ hs ∈ ranges s es, ∃ a ∈ starts s es, a ∈ hs ∧ ∀ h ∈ hs, a ≤ h) ∧ ∀ a ∈ starts s es, ∃ hs ∈ ranges s es, a ∈ hs ∧ ∀ h ∈ hs, a ≤ h := by
  induction es with
  | nil => intro s; simp [ranges, starts]
  | cons e es ih =>
    intro s
    obtain ⟨h1, h2⟩ := ih (fun e he => hne e (by simp [he])) (s + e.length)
    have hpos : 0 < e.length := List.length_pos_iff.2 (hne e (by simp))
    have hs : s ∈ List.range' s e.length ∧ ∀ h ∈ List.range' s e.length, s ≤ h := by
      simp only [List.mem_range'_1]
      exact ⟨by omega, fun h hh => hh.1⟩
    constructor
    · intro hs' hmem
      rcases List.mem_cons.1 hmem with rfl | hmem
      · exact ⟨s, by simp [starts], hs⟩
      · obtain ⟨a, ha, hr⟩ := h1 hs' hmem
        exact ⟨a, by simp [starts, ha], hr⟩
    · intro a hmem
      rcases List.mem_cons.1 hmem with rfl | hmem
      · exact ⟨_, by simp [ranges], hs⟩
      · obtain ⟨hs', hh, hr⟩ := h2 a hmem
        exact ⟨hs', by simp [ranges, hh], hr⟩

theorem fetch_fails {τ : Type} (b : Buffer τ) : ∀ (hs : List Nat), (∃ h ∈ hs, b.storage.data[h]? = none) → b.fetch hs = .error .index
  | [], h => by simp at h
  | k :: hs, h => by
    simp only [Buffer.fetch, Storage.getItem]
    cases hk : b.storage.data[k]? with
    | none => rfl
    | some x =>
      obtain ⟨j, hj, hnone⟩ := h
      rcases List.mem_cons.1 hj with rfl | hj
      · rw [hk] at hnone; simp at hnone
      · simp only [fetch_fails b hs ⟨j, hj, hnone⟩]

/-- The state in the last round. -/
theorem last_round {ι τ : Type} (conv : ι → Except Err τ) (N : Nat) (hN : 1 ≤ N) (rs : List (List (List ι))) (cur : List (List ι))
    (hle : ∀ r ∈ cur :: rs, (accepted conv r).flatten.length ≤ N) :
    ∃ E M : Lay, E.map (·.2) = (left [] (rs.map (accepted conv))).filter (fun hs => hs.all fun h => decide (h ∉ List.range (accepted conv cur).flatten.length)) ∧
      M.map (·.2) = ranges 0 (accepted conv cur) ∧
      LInv N (E ++ M) (accepted conv cur).flatten ((rounds conv (Buffer.new τ N) rs).run conv cur) := by
  obtain ⟨E, hE, hinv⟩ := rounds_inv conv rs [] (Buffer.new τ N) (LInv.new τ hN) (fun r hr => hle r (by simp [hr]))
  have hap : apart (List.range ([] : List (List τ)).flatten.length) E ++ [] = E := by simp [apart]
  obtain ⟨M, hM, hinv⟩ := LInv.round conv E cur ([] : List (List τ)) [] _ rfl (by rw [hap]; exact hinv) (by simpa using hle cur (by simp))
  simp only [List.nil_append] at hM hinv
  refine ⟨_, M, ?_, hM, hinv⟩
  rw [map_apart, hE]; rfl

theorem leftover_iff {ι τ : Type} (conv : ι → Except Err τ) (rs : List (List (List ι))) (cur : List (List ι)) :
    (left [] (rs.map (accepted conv))).filter (fun hs => hs.all fun h => decide (h ∉ List.range (accepted conv cur).flatten.length)) ≠ [] ↔
    Leftover (rs.map (accepted conv)) (accepted (τ := τ) conv cur) := by
  have hacc : ∀ r ∈ rs.map (accepted conv), ∀ e ∈ r, e ≠ ([] : List τ) := by
    intro r hr e he
    obtain ⟨r', hr', rfl⟩ := List.mem_map.1 hr
    unfold accepted at he
    obtain ⟨ep, hep, h⟩ := List.mem_filterMap.1 he
    by_cases h0 : ep = []
    · simp [h0] at h
    · simp only [h0, if_false] at h
      cases hc : ep.mapM conv with
      | error _ => simp [hc, Except.toOption] at h
      | ok ys =>
        simp [hc, Except.toOption] at h
        subst h
        have := mapM_length conv ep _ hc
        intro hn
        rw [hn] at this
        exact h0 (List.length_eq_zero_iff.1 (by simpa using this.symm))
  constructor
  · intro h
    obtain ⟨hs, hmem⟩ := List.exists_mem_of_ne_nil _ h
    obtain ⟨hl, hcur⟩ := List.mem_filter.1 hmem
    simp only [List.all_eq_true, decide_eq_true_eq, List.mem_range, Nat.not_lt] at hcur
    rcases (mem_left hs _ _).1 hl with ⟨h1, _⟩ | ⟨bf, r, af, heq, hr, haf⟩
    · simp at h1
    · obtain ⟨a, ha, hin, hmin⟩ := (ranges_starts r (hacc r (by rw [heq]; simp)) 0).1 hs hr
      exact ⟨bf, r, af, heq, a, ha, fun r' hr' => haf r' hr' a hin, hcur a hin⟩
  · rintro ⟨bf, r, af, heq, a, ha, haf, hcur⟩
    obtain ⟨hs, hr, hin, hmin⟩ := (ranges_starts r (hacc r (by rw [heq]; simp)) 0).2 a ha
    refine List.ne_nil_of_mem (a := hs) (List.mem_filter.2 ⟨(mem_left hs _ _).2 (.inr ⟨bf, r, af, heq, hr, ?_⟩), ?_⟩)
    · intro r' hr' h hh
      have := haf r' hr'; have := hmin h hh; omega
    · simp only [List.all_eq_true, decide_eq_true_eq, List.mem_range, Nat.not_lt]
      intro h hh
      have := hmin h hh; omega

/-- C05: a buffer used in rounds of stores with a clear after each, every round fitting into the buffer, gives in its last round exactly the
transitions of that round, just like a new buffer, provided every episode of an earlier round began before the end of some later round. Missing: the
other case, in which the code fails (`C05_violated_rounds`). -/
theorem C05_rounds_partial {ι τ : Type} (conv : ι → Except Err τ) (N : Nat) (hN : 1 ≤ N) (rs : List (List (List ι))) (cur : List (List ι))
    (hle : ∀ r ∈ cur :: rs, (accepted conv r).flatten.length ≤ N) (hno : ¬ Leftover (rs.map (accepted conv)) (accepted (τ := τ) conv cur))
    (sample : List Nat → Nat → List Nat) (hs : SampleContract sample) (batch : Nat) :
    let b := (rounds conv (Buffer.new τ N) rs).run conv cur
    let xs := (accepted conv cur).flatten
    b.sampleAll = .ok (xs.length, xs) ∧ b.size = xs.length ∧
    ∃ l : List τ, l.Perm xs ∧ b.sampleRandomUnique sample batch = .ok (min xs.length batch, l.take (min xs.length batch)) := by
  intro b xs
  obtain ⟨E, M, hE, hM, hinv⟩ := last_round conv N hN rs cur hle
  have hnil : E = [] := by
    have : E.map (·.2) = [] := by
      rw [hE]
      exact Classical.byContradiction fun h => hno ((leftover_iff conv rs cur).1 h)
    simpa using this
  subst hnil
  rw [List.nil_append] at hinv
  have hkeys : b.ten.keys = List.range xs.length := by
    have : b.ten = tenL M := hinv.ten
    rw [this, keys_tenL, List.flatMap_def, hM, ranges_flatten, List.range_eq_range']
  have hlen : b.ten.length = xs.length := by
    have : b.ten.keys.length = b.ten.length := by simp [PyDict.keys]
    rw [← this, hkeys]; simp
  have hdata : b.storage.data.length = xs.length := by
    have h1 : b.storage.data.length = min N xs.length := hinv.store.len
    have h2 := hle cur (by simp)
    rw [h1]; exact Nat.min_eq_right h2
  have hget : ∀ k, k < xs.length → b.storage.data[k]? = xs[k]? := by
    intro k hk
    have h2 : xs.length ≤ N := hle cur (by simp)
    have := hinv.store.get k hk (Nat.le_trans h2 (Nat.le_add_left _ _))
    rwa [Nat.mod_eq_of_lt (Nat.lt_of_lt_of_le hk h2)] at this
  have hread : b.ten.keys.map (fun k => b.storage.data[k]?) = xs.map some := by
    rw [hkeys]
    apply List.ext_getElem?
    intro j
    by_cases hj : j < xs.length
    · rw [List.getElem?_map, List.getElem?_map, List.getElem?_range hj, Option.map_some, hget j hj, List.getElem?_eq_getElem hj]; rfl
    · rw [List.getElem?_eq_none (by simpa using Nat.not_lt.1 hj), List.getElem?_eq_none (by simpa using Nat.not_lt.1 hj)]
  refine ⟨?_, hdata, ?_⟩
  · simp only [Buffer.sampleAll, fetch_eq b _ xs hread, hlen]
  · have hkl : b.ten.keys.length = xs.length := by rw [hkeys]; simp
    obtain ⟨l, hl, hsl⟩ := hs b.ten.keys (min xs.length batch) (by omega)
    have hp := hl.map (fun k => b.storage.data[k]?)
    rw [hread] at hp
    obtain ⟨ys, hys, hmap⟩ := perm_map_some hp
    refine ⟨ys, hys, ?_⟩
    simp only [Buffer.sampleRandomUnique, hlen]
    rw [hsl, fetch_eq b (l.take (min xs.length batch)) (ys.take (min xs.length batch)) (by rw [List.map_take, hmap, List.map_take])]

/-- C05 is violated whenever an episode of an earlier round began behind the end of every later round: its handles stay in the dictionaries and point
behind the data. Then sampling everything fails, and so does sampling a batch as large as the population (`IndexError`), whatever is stored. -/
theorem C05_violated_rounds {ι τ : Type} (conv : ι → Except Err τ) (N : Nat) (hN : 1 ≤ N) (rs : List (List (List ι))) (cur : List (List ι))
    (hle : ∀ r ∈ cur :: rs, (accepted conv r).flatten.length ≤ N) (hlo : Leftover (rs.map (accepted conv)) (accepted (τ := τ) conv cur))
    (sample : List Nat → Nat → List Nat) (hs : SampleContract sample) (batch : Nat) :
    let b := (rounds conv (Buffer.new τ N) rs).run conv cur
    b.sampleAll = .error .index ∧ (b.ten.length ≤ batch → b.sampleRandomUnique sample batch = .error .index) := by
  intro b
  obtain ⟨E, M, hE, hM, hinv⟩ := last_round conv N hN rs cur hle
  have hne := (leftover_iff conv rs cur).2 hlo
  obtain ⟨hs', hmem⟩ := List.exists_mem_of_ne_nil _ hne
  obtain ⟨hl, hcur⟩ := List.mem_filter.1 hmem
  simp only [List.all_eq_true, decide_eq_true_eq, List.mem_range, Nat.not_lt] at hcur
  have hx : ∃ x ∈ hs', True := by
    rcases (mem_left hs' _ _).1 hl with ⟨h1, _⟩ | ⟨bf, r, af, heq, hr, _⟩
    · simp at h1
    · have hr' : ∀ e ∈ r, e ≠ ([] : List τ) := by
        intro e he
        have : r ∈ rs.map (accepted conv) := by rw [heq]; simp
        obtain ⟨r', hr', rfl⟩ := List.mem_map.1 this
        unfold accepted at he
        obtain ⟨ep, hep, h⟩ := List.mem_filterMap.1 he
        by_cases h0 : ep = []
        · simp [h0] at h
        · simp only [h0, if_false] at h
          cases hc : ep.mapM conv with
          | error _ => simp [hc, Except.toOption] at h
          | ok ys =>
            simp [hc, Except.toOption] at h
            subst h
            have := mapM_length conv ep _ hc
            intro hn
            rw [hn] at this
            exact h0 (List.length_eq_zero_iff.1 (by simpa using this.symm))
      obtain ⟨a, _, hin, _⟩ := (ranges_starts r hr' 0).1 hs' hr
      exact ⟨a, hin, trivial⟩
  obtain ⟨x, hx, -⟩ := hx
  have hkey : x ∈ b.ten.keys := by
    have : b.ten = tenL (E ++ M) := hinv.ten
    rw [this, keys_tenL, List.flatMap_append]
    apply List.mem_append_left
    have : hs' ∈ E.map (·.2) := by rw [hE]; exact hmem
    obtain ⟨p, hp, rfl⟩ := List.mem_map.1 this
    exact List.mem_flatMap.2 ⟨p, hp, hx⟩
  have hdata : b.storage.data.length = (accepted conv cur).flatten.length := by
    have h1 : b.storage.data.length = min N (accepted conv cur).flatten.length := hinv.store.len
    have h2 := hle cur (by simp)
    rw [h1]; exact Nat.min_eq_right h2
  have hnone : b.storage.data[x]? = none := by
    rw [List.getElem?_eq_none]; rw [hdata]; exact hcur x hx
  constructor
  · simp only [Buffer.sampleAll, fetch_fails b _ ⟨x, hkey, hnone⟩]
  · intro hsz
    have hkl : b.ten.keys.length = b.ten.length := by simp [PyDict.keys]
    obtain ⟨l, hl', hsl⟩ := hs b.ten.keys (min b.ten.length batch) (by omega)
    have htake : l.take (min b.ten.length batch) = l := by
      apply List.take_of_length_le
      rw [hl'.length_eq, hkl]; omega
    simp only [Buffer.sampleRandomUnique]
    rw [hsl, htake, fetch_fails b l ⟨x, hl'.mem_iff.2 hkey, hnone⟩]

/-- C05: the documented use, one episode per update, is safe. -/
theorem C05_single_partial {ι τ : Type} (conv : ι → Except Err τ) (rs : List (List (List ι))) (cur : List (List ι))
    (hrs : ∀ r ∈ rs, (accepted (τ := τ) conv r).length ≤ 1) (hcur : accepted (τ := τ) conv cur ≠ []) :
    ¬ Leftover (rs.map (accepted conv)) (accepted (τ := τ) conv cur) := by
  rintro ⟨bf, r, af, heq, a, ha, -, hc⟩
  have hr : r ∈ rs.map (accepted conv) := by rw [heq]; simp
  obtain ⟨r', hr', rfl⟩ := List.mem_map.1 hr
  have h1 := hrs r' hr'
  have ha0 : a = 0 := by
    cases hacc : accepted (τ := τ) conv r' with
    | nil => rw [hacc] at ha; simp [starts] at ha
    | cons e es =>
      rw [hacc] at h1 ha
      have : es = [] := by
        cases es with
        | nil => rfl
        | cons _ _ => simp at h1
      subst this
      simpa [starts] using ha
  have hpos : 0 < (accepted (τ := τ) conv cur).flatten.length := by
    cases hacc : accepted (τ := τ) conv cur with
    | nil => exact absurd hacc hcur
    | cons e es =>
      have hmem : e ∈ accepted (τ := τ) conv cur := by rw [hacc]; simp
      unfold accepted at hmem
      obtain ⟨ep, hep, h⟩ := List.mem_filterMap.1 hmem
      by_cases h0 : ep = []
      · simp [h0] at h
      · simp only [h0, if_false] at h
        cases hcv : ep.mapM conv with
        | error _ => simp [hcv, Except.toOption] at h
        | ok ys =>
          simp [hcv, Except.toOption] at h
          subst h
          have := mapM_length conv ep _ hcv
          have := List.length_pos_iff.2 h0
          simp only [List.flatten_cons, List.length_append]
          omega
  omega

/-- C05: so are rounds that hold at least as many transitions as every round before. -/
theorem C05_growing_partial {ι τ : Type} (conv : ι → Except Err τ) (rs : List (List (List ι))) (cur : List (List ι))
    (hrs : ∀ r ∈ rs, (accepted (τ := τ) conv r).flatten.length ≤ (accepted (τ := τ) conv cur).flatten.length) :
    ¬ Leftover (rs.map (accepted conv)) (accepted (τ := τ) conv cur) := by
  rintro ⟨bf, r, af, heq, a, ha, haf, hc⟩
  have hr : r ∈ rs.map (accepted conv) := by rw [heq]; simp
  obtain ⟨r', hr', rfl⟩ := List.mem_map.1 hr
  have hne : ∀ e ∈ accepted (τ := τ) conv r', e ≠ [] := by
    intro e he
    unfold accepted at he
    obtain ⟨ep, hep, h⟩ := List.mem_filterMap.1 he
    by_cases h0 : ep = []
    · simp [h0] at h
    · simp only [h0, if_false] at h
      cases hcv : ep.mapM conv with
      | error _ => simp [hcv, Except.toOption] at h
      | ok ys =>
        simp [hcv, Except.toOption] at h
        subst h
        have := mapM_length conv ep _ hcv
        intro hn
        rw [hn] at this
        exact h0 (List.length_eq_zero_iff.1 (by simpa using this.symm))
  obtain ⟨hs, hm, hin, -⟩ := (ranges_starts _ hne 0).2 a ha
  have := mem_ranges hm hin
  have := hrs r' hr'
  omega

/-- Two episodes, an update, then one episode no longer than the first: the second update fails. -/
example : Leftover ([[[1, 2], [3]]].map (accepted exConv)) (accepted exConv [[4, 5]]) :=
  ⟨[], [[1, 2], [3]], [], by decide, 2, by decide, by simp, by decide⟩
example : ((rounds exConv (Buffer.new Nat 4) [[[1, 2], [3]]]).run exConv [[4, 5]]).sampleAll = .error .index := by decide
example : ((rounds exConv (Buffer.new Nat 4) [[[1, 2], [3]]]).run exConv [[4, 5], [6]]).sampleAll = .ok (3, [4, 5, 6]) := by decide
example : ((rounds exConv (Buffer.new Nat 4) [[[1, 2, 3]], [[4]]]).run exConv [[5, 6]]).sampleAll = .ok (2, [5, 6]) := by decide

end Machin.Replay
