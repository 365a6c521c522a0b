import Verif.Replay.Lemmas

/-! Helper lemmas for C05: the dictionaries of a buffer that is cleared between rounds of stores. -/

namespace Machin.Replay

open Spec

/-- Episode number and handles of the entries of the dictionaries. -/
abbrev Lay := List (Nat × List Nat)

/-- `transition_episode_number` for a layout. -/
def tenL (E : Lay) : PyDict Nat Nat := E.flatMap fun p => p.2.map fun h => (h, p.1)

/-- The entries that do not meet the handles `H`. -/
def apart (H : List Nat) (E : Lay) : Lay := E.filter fun p => p.2.all fun h => decide (h ∉ H)

theorem mem_apart {H : List Nat} {E : Lay} {p : Nat × List Nat} : p ∈ apart H E ↔ p ∈ E ∧ ∀ h ∈ p.2, h ∉ H := by
  simp [apart]

theorem keys_tenL (E : Lay) : (tenL E).keys = E.flatMap (·.2) := by
  simp [tenL, PyDict.keys, List.map_flatMap, Function.comp_def]

theorem flatMap_sublist {α β : Type} (f : α → List β) {l m : List α} (h : l.Sublist m) : (l.flatMap f).Sublist (m.flatMap f) := by
  induction h with
  | slnil => exact List.Sublist.refl _
  | cons a _ ih => rw [List.flatMap_cons]; exact ih.trans (List.sublist_append_right _ _)
  | cons_cons a _ ih => rw [List.flatMap_cons, List.flatMap_cons]; exact (List.Sublist.refl _).append ih

theorem popAll_eq : ∀ (hs : List Nat) (d : PyDict Nat Nat), hs.Nodup → (∀ h ∈ hs, h ∈ d.keys) →
    popAll hs d = (d.filter fun p => decide (p.1 ∉ hs), .ok ())
  | [], d, _, _ => by simp only [popAll]; rw [List.filter_eq_self.2 (by simp)]
  | h :: hs, d, hn, hk => by
    have hn' := List.nodup_cons.1 hn
    simp only [popAll]
    rw [if_pos ((PyDict.mem_iff d h).2 (hk h (by simp)))]
    rw [popAll_eq hs (d.erase h) hn'.2 (by
      intro x hx
      have hne : x ≠ h := by rintro rfl; exact hn'.1 hx
      have := hk x (by simp [hx])
      simp only [PyDict.keys, PyDict.erase, List.mem_map, List.mem_filter] at this ⊢
      obtain ⟨p, hp, rfl⟩ := this
      exact ⟨p, ⟨hp, by simpa using hne⟩, rfl⟩)]
    rw [PyDict.erase, List.filter_filter]
    congr 2
    funext p
    by_cases h1 : p.1 = h <;> by_cases h2 : p.1 ∈ hs <;> simp [h1, h2]

/-- The dictionaries after the loop over the handles of a new episode, for any dictionaries that match each other. -/
theorem assignLoop_lay (n : Nat) : ∀ (H K : List Nat) (E : Lay), (E.flatMap (·.2)).Nodup → (E.map (·.1)).Nodup → H.Nodup →
    (∀ h ∈ H, h ∉ K) → (∀ k ∈ K, k ∉ E.flatMap (·.2)) →
    assignLoop n H (tenL E ++ K.map fun k => (k, n)) E =
      (tenL (apart H E) ++ (K ++ H).map (fun k => (k, n)), apart H E, .ok ())
  | [], K, E, _, _, _, _, _ => by
    have : apart [] E = E := by simp [apart]
    simp [assignLoop, this]
  | h :: H, K, E, hE, hnum, hH, hHK, hKE => by
    have hH' := List.nodup_cons.1 hH
    have hhK : h ∉ K := hHK h (by simp)
    simp only [assignLoop]
    have hKn : (PyDict.get? (K.map fun k => (k, n)) h : Option Nat) = none := by
      rw [PyDict.get?_eq_none_iff]
      simpa [PyDict.keys, Function.comp_def] using hhK
    by_cases hmem : h ∈ E.flatMap (·.2)
    · obtain ⟨⟨old, hs⟩, hp, hh⟩ := List.mem_flatMap.1 hmem
      dsimp only at hh
      have hwf : (tenL E).WF := by rw [PyDict.WF, keys_tenL]; exact hE
      have hget : (tenL E).get? h = some old :=
        PyDict.get?_of_mem hwf (List.mem_flatMap.2 ⟨(old, hs), hp, List.mem_map.2 ⟨h, hh, rfl⟩⟩)
      have hget' : PyDict.get? (tenL E ++ K.map fun k => (k, n)) h = some old := by rw [PyDict.get?_append, hget]; rfl
      have heth : PyDict.get? E old = some hs := PyDict.get?_of_mem (d := E) hnum hp
      have hsnd : hs.Nodup := by
        rw [List.flatMap_def] at hE
        exact hE.sublist (List.sublist_flatten_of_mem (List.mem_map.2 ⟨_, hp, rfl⟩))
      have hpop : popAll hs (tenL E ++ K.map fun k => (k, n)) =
          (tenL (E.filter fun p => decide (p.1 ≠ old)) ++ K.map (fun k => (k, n)), .ok ()) := by
        rw [popAll_eq hs _ hsnd (by
          intro x hx
          rw [PyDict.keys_append, keys_tenL]
          exact List.mem_append_left _ (List.mem_flatMap.2 ⟨_, hp, hx⟩))]
        rw [List.filter_append]
        congr 2
        · -- the entries of the other episodes
          have hdis : ∀ q ∈ E, (q.1 = old ↔ ∃ x ∈ q.2, x ∈ hs) ∨ q.2 = [] := by
            intro q hq
            by_cases hq2 : q.2 = []
            · exact .inr hq2
            · left
              constructor
              · intro hqo
                have : q = (old, hs) := by
                  have h1 := PyDict.get?_of_mem (d := E) hnum (k := q.1) (v := q.2) hq
                  rw [hqo, heth] at h1
                  cases q; simp only at hqo h1; rw [hqo]; congr 1; exact (Option.some.inj h1).symm
                subst this
                obtain ⟨x, hx⟩ := List.exists_mem_of_ne_nil _ hq2
                exact ⟨x, hx, hx⟩
              · rintro ⟨x, hx, hx'⟩
                have h1 : (tenL E).get? x = some q.1 :=
                  PyDict.get?_of_mem hwf (List.mem_flatMap.2 ⟨q, hq, List.mem_map.2 ⟨x, hx, rfl⟩⟩)
                have h2 : (tenL E).get? x = some old :=
                  PyDict.get?_of_mem hwf (List.mem_flatMap.2 ⟨(old, hs), hp, List.mem_map.2 ⟨x, hx', rfl⟩⟩)
                rw [h1] at h2; exact Option.some.inj h2
          have hall : ∀ q ∈ E, q.1 = old → ∀ x ∈ q.2, x ∈ hs := by
            intro q hq hqo x hx
            have h1 := PyDict.get?_of_mem (d := E) hnum (k := q.1) (v := q.2) hq
            rw [hqo, heth] at h1
            rw [Option.some.inj h1]; exact hx
          clear hget' heth hget hwf hp hE hnum hmem hKE
          induction E with
          | nil => rfl
          | cons q E ih =>
            simp only [tenL, List.flatMap_cons, List.filter_append, List.filter_cons] at ih ⊢
            have ih := ih (fun q hq => hdis q (by simp [hq])) (fun q hq => hall q (by simp [hq]))
            rw [ih]
            by_cases hqo : q.1 = old
            · simp only [hqo, ne_eq, not_true_eq_false, decide_false, Bool.false_eq_true, if_false]
              have : List.filter (fun p : Nat × Nat => decide (p.1 ∉ hs)) (q.2.map fun h => (h, old)) = [] := by
                rw [List.filter_eq_nil_iff]
                intro p hp
                obtain ⟨x, hx, rfl⟩ := List.mem_map.1 hp
                simpa using hall q (by simp) hqo x hx
              rw [this]; rfl
            · simp only [hqo, ne_eq, not_false_eq_true, decide_true, if_true, List.flatMap_cons]
              congr 1
              rw [List.filter_eq_self]
              intro p hp
              obtain ⟨x, hx, rfl⟩ := List.mem_map.1 hp
              have hne : q.2 ≠ [] := List.ne_nil_of_mem hx
              rcases hdis q (by simp) with hd | hd
              · simp only [decide_eq_true_eq]
                intro hxs
                exact hqo (hd.2 ⟨x, hx, hxs⟩)
              · exact absurd hd hne
        · rw [List.filter_eq_self]
          intro p hpK
          obtain ⟨k, hk, rfl⟩ := List.mem_map.1 hpK
          simp only [decide_eq_true_eq]
          intro hks
          exact hKE k hk (List.mem_flatMap.2 ⟨_, hp, hks⟩)
      rw [hget']
      simp only [heth, hpop]
      have hnot : h ∉ (tenL (E.filter fun p => decide (p.1 ≠ old)) ++ K.map (fun k => (k, n))).keys := by
        rw [PyDict.keys_append, keys_tenL]
        intro hin
        rcases List.mem_append.1 hin with hin | hin
        · obtain ⟨q, hq, hx⟩ := List.mem_flatMap.1 hin
          obtain ⟨hqE, hqo⟩ := List.mem_filter.1 hq
          have h1 : (tenL E).get? h = some q.1 :=
            PyDict.get?_of_mem hwf (List.mem_flatMap.2 ⟨q, hqE, List.mem_map.2 ⟨h, hx, rfl⟩⟩)
          rw [hget] at h1
          simp at hqo
          exact hqo (Option.some.inj h1).symm
        · simp [PyDict.keys, Function.comp_def] at hin
          exact hhK hin
      rw [PyDict.set_of_not_mem hnot, List.append_assoc]
      have hK' : (K.map fun k => (k, n)) ++ [(h, n)] = (K ++ [h]).map fun k => (k, n) := by simp
      rw [hK']
      have hsub : (E.filter fun p => decide (p.1 ≠ old)).Sublist E := List.filter_sublist
      have heras : PyDict.erase E old = E.filter fun p => decide (p.1 ≠ old) := rfl
      rw [heras, assignLoop_lay n H (K ++ [h]) (E.filter fun p => decide (p.1 ≠ old))
        (hE.sublist (flatMap_sublist _ hsub)) (hnum.sublist (hsub.map _)) hH'.2 ?_ ?_]
      · have : apart H (E.filter fun p => decide (p.1 ≠ old)) = apart (h :: H) E := by
          unfold apart
          rw [List.filter_filter]
          apply List.filter_congr
          intro q hq
          have hiff : q.1 = old ↔ h ∈ q.2 := by
            constructor
            · intro hqo
              have h1 := PyDict.get?_of_mem (d := E) hnum (k := q.1) (v := q.2) hq
              rw [hqo, heth] at h1
              rw [← Option.some.inj h1]; exact hh
            · intro hx
              have h1 : (tenL E).get? h = some q.1 :=
                PyDict.get?_of_mem hwf (List.mem_flatMap.2 ⟨q, hq, List.mem_map.2 ⟨h, hx, rfl⟩⟩)
              rw [hget] at h1; exact (Option.some.inj h1).symm
          rw [Bool.eq_iff_iff]
          simp only [Bool.and_eq_true, List.all_eq_true, decide_eq_true_eq, List.mem_cons, not_or]
          constructor
          · rintro ⟨h1, h2⟩ x hx
            exact ⟨by rintro rfl; exact h2 (hiff.2 hx), h1 x hx⟩
          · intro h1
            exact ⟨fun x hx => (h1 x hx).2, fun hqo => (h1 h (hiff.1 hqo)).1 rfl⟩
        rw [this]
        simp
      · intro x hx
        simp only [List.mem_append, List.mem_singleton, not_or]
        exact ⟨hHK x (by simp [hx]), by rintro rfl; exact hH'.1 hx⟩
      · intro k hk
        rcases List.mem_append.1 hk with hk | hk
        · exact fun hin => hKE k hk ((flatMap_sublist _ hsub).subset hin)
        · rw [List.mem_singleton.1 hk]
          intro hin
          apply hnot
          rw [PyDict.keys_append, keys_tenL]
          exact List.mem_append_left _ hin
    · have hget : PyDict.get? (tenL E ++ K.map fun k => (k, n)) h = none := by
        rw [PyDict.get?_append, (PyDict.get?_eq_none_iff _ _).2 (by rw [keys_tenL]; exact hmem), hKn]; rfl
      have hnot := (PyDict.get?_eq_none_iff _ _).1 hget
      rw [hget]
      simp only
      rw [PyDict.set_of_not_mem hnot, List.append_assoc]
      have hK' : (K.map fun k => (k, n)) ++ [(h, n)] = (K ++ [h]).map fun k => (k, n) := by simp
      rw [hK', assignLoop_lay n H (K ++ [h]) E hE hnum hH'.2 ?_ ?_]
      · have : apart H E = apart (h :: H) E := by
          unfold apart
          apply List.filter_congr
          intro q hq
          rw [Bool.eq_iff_iff]
          simp only [List.all_eq_true, decide_eq_true_eq, List.mem_cons, not_or]
          constructor
          · intro h1 x hx
            exact ⟨by rintro rfl; exact hmem (List.mem_flatMap.2 ⟨q, hq, hx⟩), h1 x hx⟩
          · intro h1 x hx; exact (h1 x hx).2
        rw [this]
        simp
      · intro x hx
        simp only [List.mem_append, List.mem_singleton, not_or]
        exact ⟨hHK x (by simp [hx]), by rintro rfl; exact hH'.1 hx⟩
      · intro k hk
        rcases List.mem_append.1 hk with hk | hk
        · exact hKE k hk
        · rw [List.mem_singleton.1 hk]; exact hmem

/-- The handles of episodes stored one after the other from position `s` on. -/
def ranges {τ : Type} : Nat → List (List τ) → List (List Nat)
  | _, [] => []
  | s, e :: es => List.range' s e.length :: ranges (s + e.length) es

theorem ranges_append {τ : Type} (es : List (List τ)) (f : List τ) : ∀ s, ranges s (es ++ [f]) = ranges s es ++ [List.range' (s + es.flatten.length) f.length] := by
  induction es with
  | nil => intro s; simp [ranges]
  | cons e es ih => intro s; simp [ranges, ih, Nat.add_assoc]

theorem ranges_flatten {τ : Type} (es : List (List τ)) : ∀ s, (ranges s es).flatten = List.range' s es.flatten.length := by
  induction es with
  | nil => intro s; simp [ranges]
  | cons e es ih => intro s; simp [ranges, ih, List.range'_append]

theorem mem_ranges {τ : Type} {es : List (List τ)} {s x : Nat} {hs : List Nat} (h : hs ∈ ranges s es) (hx : x ∈ hs) : s ≤ x ∧ x < s + es.flatten.length := by
  have : x ∈ (ranges s es).flatten := List.mem_flatten.2 ⟨hs, h, hx⟩
  rw [ranges_flatten, List.mem_range'_1] at this
  exact this

theorem slots_eq {N s len : Nat} (h : s + len ≤ N) : slots N s len = List.range' s len := by
  unfold slots
  conv => rhs; rw [← List.map_id (List.range' s len)]
  apply List.map_congr_left
  intro x hx
  rw [List.mem_range'_1] at hx
  exact Nat.mod_eq_of_lt (by omega)

/-- The state of a buffer: the entries `E` of the dictionaries, and the transitions in the storage. -/
structure LInv {τ : Type} (N : Nat) (E : Lay) (flat : List τ) (b : Buffer τ) : Prop where
  store : SInv N flat b.storage
  ten : b.ten = tenL E
  eth : b.eth = E
  handles : (E.flatMap (·.2)).Nodup
  nums : (E.map (·.1)).Nodup
  lt : ∀ i ∈ E.map (·.1), i < b.counter

theorem LInv.new (τ : Type) {N : Nat} (h : 0 < N) : LInv N [] ([] : List τ) (Buffer.new τ N) :=
  ⟨SInv.new τ h, rfl, rfl, by simp, by simp, by simp⟩

theorem LInv.clear {τ : Type} {N : Nat} {E : Lay} {flat : List τ} {b : Buffer τ} (h : LInv N E flat b) : LInv N E [] b.clear :=
  ⟨h.store.clear, h.ten, h.eth, h.handles, h.nums, h.lt⟩

theorem LInv.storeEpisode {ι τ : Type} {N : Nat} (conv : ι → Except Err τ) {E : Lay} {flat : List τ} {b : Buffer τ} (hb : LInv N E flat b)
    (ep : List ι) (ys : List τ) (h : ep ≠ []) (hc : ep.mapM conv = .ok ys) (hle : flat.length + ys.length ≤ N) :
    ∃ b', b.storeEpisode conv ep = (b', .ok ()) ∧
      LInv N (apart (List.range' flat.length ys.length) E ++ [(b.counter, List.range' flat.length ys.length)]) (flat ++ ys) b' := by
  have h0 : ¬ ep.length = 0 := by simpa using h
  obtain ⟨s', hstore, hs'⟩ := storeEpisode_inv (ep := ys) hb.store (by omega)
  rw [slots_eq hle] at hstore
  have hloop := assignLoop_lay b.counter (List.range' flat.length ys.length) [] E hb.handles hb.nums List.nodup_range' (by simp) (by simp)
  simp only [List.map_nil, List.append_nil, List.nil_append] at hloop
  have hsub : (apart (List.range' flat.length ys.length) E).Sublist E := List.filter_sublist
  have hnew : b.counter ∉ (apart (List.range' flat.length ys.length) E).map (·.1) := by
    intro hin
    have := hb.lt _ ((hsub.map _).subset hin)
    omega
  refine ⟨⟨s', tenL (apart (List.range' flat.length ys.length) E) ++ (List.range' flat.length ys.length).map (fun k => (k, b.counter)),
    apart (List.range' flat.length ys.length) E ++ [(b.counter, List.range' flat.length ys.length)], b.counter + 1⟩, ?_, ?_⟩
  · simp only [Buffer.storeEpisode, h0, if_false, convAll_eq, hc, hstore]
    have e1 : b.ten = tenL E := hb.ten
    have e2 : b.eth = E := hb.eth
    simp only [e1, e2, hloop]
    rw [PyDict.set_of_not_mem (by simpa [PyDict.keys] using hnew)]
  · refine ⟨hs', ?_, rfl, ?_, ?_, ?_⟩
    · simp [tenL]
    · rw [List.flatMap_append, List.nodup_append]
      refine ⟨hb.handles.sublist (flatMap_sublist _ hsub), by simpa using List.nodup_range', ?_⟩
      intro x hx y hy
      simp only [List.flatMap_cons, List.flatMap_nil, List.append_nil] at hy
      obtain ⟨p, hp, hxp⟩ := List.mem_flatMap.1 hx
      rintro rfl
      exact (mem_apart.1 hp).2 x hxp hy
    · rw [List.map_append, List.nodup_append]
      refine ⟨hb.nums.sublist (hsub.map _), by simp, ?_⟩
      intro x hx y hy
      simp at hy
      rw [hy]; rintro rfl; exact hnew hx
    · intro i hi
      simp only [List.map_append, List.mem_append, List.map_cons, List.map_nil, List.mem_singleton] at hi
      rcases hi with hi | hi
      · have := hb.lt _ ((hsub.map _).subset hi)
        show i < b.counter + 1
        omega
      · show i < b.counter + 1
        omega

theorem apart_apart (A B : List Nat) (E : Lay) : apart B (apart A E) = apart (A ++ B) E := by
  unfold apart
  rw [List.filter_filter]
  apply List.filter_congr
  intro p _
  rw [Bool.eq_iff_iff]
  simp only [Bool.and_eq_true, List.all_eq_true, decide_eq_true_eq, List.mem_append, not_or]
  exact ⟨fun h x hx => ⟨h.2 x hx, h.1 x hx⟩, fun h => ⟨fun x hx => (h x hx).2, fun x hx => (h x hx).1⟩⟩

/-- One round of stores on a cleared buffer: the older entries it does not meet stay, those of the round follow. -/
theorem LInv.round {ι τ : Type} {N : Nat} (conv : ι → Except Err τ) (E₀ : Lay) : ∀ (h : List (List ι)) (es : List (List τ)) (M : Lay) (b : Buffer τ),
    M.map (·.2) = ranges 0 es → LInv N (apart (List.range es.flatten.length) E₀ ++ M) es.flatten b →
    (es ++ accepted conv h).flatten.length ≤ N →
    ∃ M', M'.map (·.2) = ranges 0 (es ++ accepted conv h) ∧
      LInv N (apart (List.range (es ++ accepted conv h).flatten.length) E₀ ++ M') (es ++ accepted conv h).flatten (b.run conv h) := by
  intro h
  induction h with
  | nil => intro es M b hM hb _; exact ⟨M, by simpa [accepted] using hM, by simpa [accepted, Buffer.run] using hb⟩
  | cons ep h ih =>
    intro es M b hM hb hle
    have hrun : b.run conv (ep :: h) = ((b.storeEpisode conv ep).1).run conv h := rfl
    rw [hrun, accepted_cons, ← List.append_assoc]
    rw [accepted_cons, ← List.append_assoc] at hle
    by_cases h0 : ep = []
    · subst h0
      simp only [if_true, List.append_nil] at hle ⊢
      exact ih es M _ hM (by simpa [Buffer.storeEpisode] using hb) hle
    · simp only [h0, if_false] at hle ⊢
      cases hc : ep.mapM conv with
      | error e =>
        rw [hc] at hle
        simp only [List.append_nil] at hle ⊢
        refine ih es M _ hM ?_ hle
        rw [storeEpisode_reject conv b ep e h0 hc]
        exact ⟨hb.store, hb.ten, hb.eth, hb.handles, hb.nums, fun i hi => Nat.lt_succ_of_lt (hb.lt i hi)⟩
      | ok ys =>
        rw [hc] at hle
        simp only at hle ⊢
        have hfit : es.flatten.length + ys.length ≤ N := by
          rw [List.flatten_append, List.flatten_append, List.length_append, List.length_append] at hle
          simp at hle
          simp
          omega
        obtain ⟨b', hb', hinv⟩ := hb.storeEpisode conv ep ys h0 hc hfit
        rw [hb']
        have hap : apart (List.range' es.flatten.length ys.length) (apart (List.range es.flatten.length) E₀ ++ M) =
            apart (List.range (es ++ [ys]).flatten.length) E₀ ++ M := by
          have h1 : ∀ A B, apart (List.range' es.flatten.length ys.length) (A ++ B) =
              apart (List.range' es.flatten.length ys.length) A ++ apart (List.range' es.flatten.length ys.length) B := by
            intro A B; simp [apart]
          rw [h1, apart_apart]
          congr 1
          · congr 1
            have := List.range'_append_1 (s := 0) (m := es.flatten.length) (n := ys.length)
            rw [Nat.zero_add] at this
            rw [List.range_eq_range', List.range_eq_range', this]
            simp
          · unfold apart
            rw [List.filter_eq_self]
            intro p hp
            simp only [List.all_eq_true, decide_eq_true_eq]
            intro x hx hin
            have := mem_ranges (es := es) (s := 0) (hs := p.2) (by rw [← hM]; exact List.mem_map.2 ⟨p, hp, rfl⟩) hx
            rw [List.mem_range'_1] at hin
            omega
        rw [hap, List.append_assoc] at hinv
        refine ih (es ++ [ys]) (M ++ [(b.counter, List.range' es.flatten.length ys.length)]) b' ?_ ?_ hle
        · rw [List.map_append, hM, ranges_append]; simp
        · have : (es ++ [ys]).flatten = es.flatten ++ ys := by simp
          rw [this] at hinv ⊢
          exact hinv

end Machin.Replay
