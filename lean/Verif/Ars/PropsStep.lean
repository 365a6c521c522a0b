import Verif.Ars.PropsTop

/-! # Properties of the ARS update: C146 and C147 -/

namespace Machin.Ars

variable {K : Type}

/-! ### C146: the step of the actor -/

/-- The entry was made from `θ` with the noise it names: its positive network is `θ` plus that noise. -/
def Perturbed [Add K] (noise : List K) (θ : Params K) (e : Entry K) : Prop :=
  ∀ (k : Nat) (name : String) (v : List K), θ[k]? = some (name, v) → ∃ (i : Nat) (p : List K), e.idx.lookup name = some i ∧ e.pos[k]? = some (name, p) ∧
    i + v.length ≤ noise.length ∧ p.length = v.length ∧
    ∀ (j : Nat) (x δ : K), v[j]? = some x → noise[i + j]? = some δ → p[j]? = some (x + δ)

/-- The difference of the positive network of the entry from the actor, at position `j` of parameter `k`. -/
def delta [Field K] (θ : Params K) (k j : Nat) (e : Entry K) : K :=
  (((e.pos[k]?).getD ("", [])).2.getD j 0) - (((θ[k]?).getD ("", [])).2.getD j 0)

/-- The average of `f` over a list. -/
def avg [Field K] {A : Type} (l : List A) (f : A → K) : K := (l.map f).sum / (l.length : K)

/-- The better one of the two average rewards of a rollout. -/
def score [Field K] [LinearOrder K] (e : Entry K) : K := max (avg e.posR id) (avg e.negR id)

/-- The rollouts with fewer than `u` better ones. -/
def best [Field K] [LinearOrder K] (u : Nat) (all : List (Entry K)) : List (Entry K) :=
  all.filter fun e => decide (all.countP (fun e' => decide (score e < score e')) < u)

/-- The divisor of the rewards: the deviation of the average rewards of the rollouts `B`, 1 if that is close to 0. -/
def divisor [Field K] (std : List K → K) (close : K → Bool) (B : List (Entry K)) : K :=
  let σ := std ((B.map fun e => avg e.posR id) ++ B.map fun e => avg e.negR id)
  if close σ then 1 else σ

theorem lookup_of_nodup {A : Type} : ∀ (l : List (String × A)), (l.map (·.1)).Nodup → ∀ (k : Nat) (name : String) (a : A), l[k]? = some (name, a) →
    l.lookup name = some a
  | [], _, k, name, a, h => by simp at h
  | x :: xs, hnd, k, name, a, h => by
    simp only [List.map_cons, List.nodup_cons] at hnd
    cases k with
    | zero =>
      simp only [List.getElem?_cons_zero, Option.some.injEq] at h
      subst h
      simp [List.lookup]
    | succ k =>
      simp only [List.getElem?_cons_succ] at h
      have : name ≠ x.1 := by
        intro e
        exact hnd.1 (by rw [← e]; exact List.mem_map_of_mem (f := (·.1)) (List.mem_of_getElem? h))
      rw [List.lookup_cons]
      have hb : (name == x.1) = false := by simpa using this
      rw [hb]
      exact lookup_of_nodup xs hnd.2 k name a h

/-- The entries made by `_generate_parameter` are perturbations of the actor (parameter names are distinct). -/
theorem C146_perturbed [AddGroup K] (noise : List K) (θ : Params K) (hθ : (θ.map (·.1)).Nodup) (draw : Nat → String → Nat → Nat)
    (hdraw : ∀ r name n, 0 < n → draw r name n < n) (rollouts : List Nat) (w : List (Entry K)) (hw : generate noise θ draw rollouts = .ok w)
    (e : Entry K) (he : e ∈ w) : Perturbed noise θ e := by
  intro k name v hk
  obtain ⟨_, _, hl, h⟩ := ((C144_generated noise θ draw hdraw rollouts).2 w hw).2 e he
  obtain ⟨i, p, q, h1, h2, h3, h4, h5, h6, h7⟩ := h k name v hk
  refine ⟨i, p, ?_, h2, h4, h5, fun j x δ hx hδ => (h7 j x δ hx hδ).1⟩
  have hnames : e.idx.map (·.1) = θ.map (·.1) := by
    apply List.ext_getElem (by simpa using hl)
    intro n a b
    have hb : n < θ.length := by simpa using b
    obtain ⟨i', _, _, h1', _⟩ := h n θ[n].1 θ[n].2 (List.getElem?_eq_getElem hb)
    have ha : n < e.idx.length := by simpa using a
    rw [List.getElem?_eq_getElem ha, Option.some.injEq] at h1'
    rw [List.getElem_map, List.getElem_map, h1']
  exact lookup_of_nodup e.idx (by rw [hnames]; exact hθ) k name i h1

theorem mapE_map {A B : Type} (f : A → Except Err B) (g : A → B) : ∀ l : List A, (∀ x ∈ l, f x = .ok (g x)) → Algo.mapE f l = .ok (l.map g)
  | [], _ => rfl
  | x :: xs, h => by
    simp only [Algo.mapE, h x (by simp), mapE_map f g xs fun y hy => h y (by simp [hy]), List.map_cons]

theorem select_filter {A B : Type} (p : B → Bool) (s : A → B) (d : B) : ∀ l : List A,
    ((List.range l.length).filter fun i => p ((l.map s).getD i d)).filterMap (fun i => l[i]?) = l.filter fun a => p (s a) := by
  intro l
  induction l using List.reverseRecOn with
  | nil => rfl
  | append_singleton l x ih =>
    rw [List.length_append, List.length_singleton, List.range_succ, List.filter_append, List.filterMap_append, List.filter_append, ← ih]
    have h1 : (List.range l.length).filter (fun i => p (((l ++ [x]).map s).getD i d)) = (List.range l.length).filter fun i => p ((l.map s).getD i d) := by
      apply List.filter_congr
      intro i hi
      have hi : i < l.length := List.mem_range.1 hi
      rw [List.getD_eq_getElem?_getD, List.getD_eq_getElem?_getD, List.map_append, List.getElem?_append_left (by simpa using hi)]
    rw [h1]
    congr 1
    · apply List.filterMap_congr
      intro i hi
      have hi : i < l.length := List.mem_range.1 (List.mem_filter.1 hi).1
      exact List.getElem?_append_left hi
    · by_cases hx : p (s x) <;> simp [List.getD_eq_getElem?_getD, hx]

section
variable [Field K] [LinearOrder K] [IsStrictOrderedRing K]

theorem best_eq (n u : Nat) (all : List (Entry K)) (hn : all.length = n) (hu : 0 < u) (hun : u ≤ n) :
    (used n u (all.map score)).filterMap (fun i => all[i]?) = best u all := by
  have h := select_filter (fun x : K => decide (percentile (all.map score) (n - u) n ≤ x)) score 0 all
  rw [used, List.length_map, h, best]
  apply List.filter_congr
  intro e he
  obtain ⟨i, hi, rfl⟩ := List.getElem_of_mem he
  have hx : (all.map score)[i]? = some (score all[i]) := by simp [hi]
  have := C145_used_iff_partial n u (all.map score) (by simpa using hn) hu hun i _ hx
  rw [used, List.mem_filter, List.mem_range, List.getD_eq_getElem?_getD, hx, Option.getD_some, List.length_map, List.countP_map] at this
  rw [Bool.eq_iff_iff]
  constructor
  · intro h
    exact decide_eq_true (this.1 ⟨hi, h⟩)
  · intro h
    exact (this.2 (of_decide_eq_true h)).2

theorem best_ne (n u : Nat) (all : List (Entry K)) (hn : all.length = n) (hu : 0 < u) (hun : u ≤ n) : best u all ≠ [] := by
  have hlen := (C145_number_partial n u (all.map score) (by simpa using hn) hu hun).1
  obtain ⟨i, hi⟩ := List.exists_mem_of_length_pos (lt_of_lt_of_le hu hlen)
  have hlt : i < all.length := by
    rw [used, List.mem_filter, List.mem_range, List.length_map] at hi
    exact hi.1
  rw [← best_eq n u all hn hu hun]
  exact List.ne_nil_of_mem (List.mem_filterMap.2 ⟨i, hi, List.getElem?_eq_getElem hlt⟩)

/-- What the update amounts to if all rewards are there and the noise indexes have all parameters. -/
theorem update_eq (std : List K → K) (close : K → Bool) (lr : K) (noise : List K) (n u : Nat) (θ : Params K) (members : List (List (Entry K)))
    (hn : members.flatten.length = n) (hu : 0 < u) (hun : u ≤ n) (hr : ∀ e ∈ members.flatten, e.posR ≠ [] ∧ e.negR ≠ [])
    (hi : ∀ e ∈ members.flatten, ∀ p ∈ θ, ∃ i, e.idx.lookup p.1 = some i) :
    managerUpdate std close lr noise n u θ members = .ok (θ.map fun p => (p.1, p.2.zipWith (fun x d => x - lr * d) ((List.range p.2.length).map fun j =>
      avg (best u members.flatten) fun e => (get noise ((e.idx.lookup p.1).getD 0) p.2.length).getD j 0 *
        ((avg e.negR id - avg e.posR id) / divisor std close (best u members.flatten))))) := by
  have hg : gather members = .ok (members.flatten.map fun e => (avg e.posR id, avg e.negR id, e.idx)) := by
    apply mapE_map
    intro e he
    obtain ⟨h1, h2⟩ := hr e he
    rw [result, if_neg (by simp [h1, h2])]
    simp [average, avg]
  rw [managerUpdate, hg]
  dsimp only
  generalize members.flatten = all at *
  have hne : best u all ≠ [] := best_ne n u all hn hu hun
  have hsel : (used n u ((all.map fun e => (avg e.posR id, avg e.negR id, e.idx)).map fun r => max r.1 r.2.1)).filterMap
      (fun i => (all.map fun e => (avg e.posR id, avg e.negR id, e.idx))[i]?) = (best u all).map fun e => (avg e.posR id, avg e.negR id, e.idx) := by
    rw [← best_eq n u all hn hu hun, List.map_filterMap, List.map_map]
    congr 1
    funext i
    rw [List.getElem?_map]
  rw [hsel]
  have hd : differences std close (((best u all).map fun e => (avg e.posR id, avg e.negR id, e.idx)).map fun r => (r.1, r.2.1)) =
      (best u all).map fun e => (avg e.negR id - avg e.posR id) / divisor std close (best u all) := by
    unfold differences divisor
    simp only [List.map_map, Function.comp_def]
    split
    · simp
    · apply List.map_congr_left
      intro e _
      exact (sub_div _ _ _).symm
  rw [hd]
  apply mapE_map
  intro p hp
  have hb : ∀ e ∈ best u all, e ∈ all := fun e he => (List.mem_filter.1 he).1
  generalize divisor std close (best u all) = σ
  generalize best u all = B at *
  have hgr : gradient noise p.1 p.2.length (B.map fun e => (avg e.negR id - avg e.posR id) / σ)
      ((B.map fun e => (avg e.posR id, avg e.negR id, e.idx)).map (·.2.2)) = .ok ((List.range p.2.length).map fun j =>
      avg B fun e => (get noise ((e.idx.lookup p.1).getD 0) p.2.length).getD j 0 * ((avg e.negR id - avg e.posR id) / σ)) := by
    have hz : (B.map fun e => (avg e.negR id - avg e.posR id) / σ).zip ((B.map fun e => (avg e.posR id, avg e.negR id, e.idx)).map (·.2.2)) =
        B.map fun e => ((avg e.negR id - avg e.posR id) / σ, e.idx) := by
      rw [List.map_map, List.zip_map']
      rfl
    rw [gradient, hz, mapE_map _ (fun q => (get noise ((q.2.lookup p.1).getD 0) p.2.length).map (· * q.1))]
    · cases B with
      | nil => exact absurd rfl hne
      | cons b B =>
        simp only [List.map_cons, Except.ok.injEq]
        apply List.map_congr_left
        intro j hj
        have hget : ∀ (l : List K) (c : K), (l.map (· * c)).getD j 0 = l.getD j 0 * c := by
          intro l c
          rw [List.getD_eq_getElem?_getD, List.getD_eq_getElem?_getD, List.getElem?_map]
          cases l[j]? <;> simp
        simp only [List.map_map, Function.comp_def, hget, List.map_cons, List.length_cons, List.length_map]
        rfl
    · intro q hq
      obtain ⟨e, he, rfl⟩ := List.mem_map.1 hq
      obtain ⟨i, h⟩ := hi e (hb e he) p hp
      simp only [h, Option.getD_some]
  rw [hgr]

/-- C146: with rewards for all networks and `0 < used_rollout_num ≤ rollout_num`, the update moves every entry of the actor by the learning rate times the
average, over the rollouts with fewer than `used_rollout_num` better ones, of the noise of the rollout weighted by the difference of the average rewards of
its positive and its negative network, in units of the deviation of these averages. Parameters keep their names, order and sizes. -/
theorem C146_step (std : List K → K) (close : K → Bool) (lr : K) (noise : List K) (n u : Nat) (θ : Params K) (members : List (List (Entry K)))
    (hn : members.flatten.length = n) (hu : 0 < u) (hun : u ≤ n) (hr : ∀ e ∈ members.flatten, e.posR ≠ [] ∧ e.negR ≠ [])
    (hp : ∀ e ∈ members.flatten, Perturbed noise θ e) :
    ∃ θ', managerUpdate std close lr noise n u θ members = .ok θ' ∧ θ'.length = θ.length ∧ best u members.flatten ≠ [] ∧
      ∀ (k : Nat) (name : String) (v : List K), θ[k]? = some (name, v) → ∃ v', θ'[k]? = some (name, v') ∧ v'.length = v.length ∧
        ∀ (j : Nat) (x : K), v[j]? = some x → v'[j]? = some (x + lr * avg (best u members.flatten) fun e =>
          (avg e.posR id - avg e.negR id) / divisor std close (best u members.flatten) * delta θ k j e) := by
  have hi : ∀ e ∈ members.flatten, ∀ p ∈ θ, ∃ i, e.idx.lookup p.1 = some i := by
    intro e he p hpm
    obtain ⟨k, hk, rfl⟩ := List.getElem_of_mem hpm
    obtain ⟨i, _, h, _⟩ := hp e he k θ[k].1 θ[k].2 (List.getElem?_eq_getElem hk)
    exact ⟨i, h⟩
  refine ⟨_, update_eq std close lr noise n u θ members hn hu hun hr hi, by simp, ?_, ?_⟩
  · exact best_ne n u _ hn hu hun
  · intro k name v hk
    refine ⟨_, by rw [List.getElem?_map, hk]; rfl, by simp, ?_⟩
    intro j x hx
    have hj : j < v.length := (List.getElem?_eq_some_iff.1 hx).1
    have hxe : v[j] = x := (List.getElem?_eq_some_iff.1 hx).2
    rw [List.getElem?_eq_getElem (by simpa using hj)]
    simp only [List.getElem_zipWith, List.getElem_map, List.getElem_range, Option.some.injEq]
    rw [hxe, sub_eq_add_neg, ← mul_neg]
    congr 2
    unfold avg
    rw [← neg_div]
    congr 1
    have hneg : ∀ (l : List (Entry K)) (f : Entry K → K), -(l.map f).sum = (l.map fun e => -f e).sum := by
      intro l f
      induction l with
      | nil => simp
      | cons a l ih => simp only [List.map_cons, List.sum_cons, neg_add, ih]
    rw [hneg]
    congr 1
    apply List.map_congr_left
    intro e he
    obtain ⟨i, p, h1, h2, h3, h4, h5⟩ := hp e (List.mem_filter.1 he).1 k name v hk
    have hij : i + j < noise.length := by omega
    have h6 := h5 j x noise[i + j] hx (List.getElem?_eq_getElem hij)
    have hdelta : delta θ k j e = noise[i + j] := by
      rw [delta, h2, hk, Option.getD_some, Option.getD_some, List.getD_eq_getElem?_getD, List.getD_eq_getElem?_getD, h6, hx]
      simp
    have hg : (get noise i v.length).getD j 0 = noise[i + j] := by
      rw [get, List.getD_eq_getElem?_getD, List.getElem?_take_of_lt hj, List.getElem?_drop, List.getElem?_eq_getElem hij]
      rfl
    rw [hdelta, h1, Option.getD_some, hg, ← mul_neg, ← neg_div, neg_sub]
    ring

/-- C146: if a reward is missing for a network, the update fails with an `AssertionError`. -/
theorem C146_missing (std : List K → K) (close : K → Bool) (lr : K) (noise : List K) (n u : Nat) (θ : Params K) (members : List (List (Entry K)))
    (h : ∃ e ∈ members.flatten, e.posR = [] ∨ e.negR = []) : managerUpdate std close lr noise n u θ members = .error .assertion := by
  have : gather members = .error .assertion := by
    unfold gather
    generalize members.flatten = l at h
    induction l with
    | nil => simp at h
    | cons x xs ih =>
      rw [Algo.mapE]
      by_cases hx : x.posR = [] ∨ x.negR = []
      · rw [result, if_pos (by rcases hx with hx | hx <;> simp [hx])]
      · obtain ⟨e, he, h⟩ := h
        rcases List.mem_cons.1 he with rfl | he
        · exact absurd h hx
        · rw [ih ⟨e, he, h⟩, result, if_neg (by simpa [and_comm, not_or] using hx)]
  rw [managerUpdate, this]

/-- A concrete update: two members with two rollouts each, three of the four used. -/
example : managerUpdate (fun _ => 2) (fun _ => false) (1 / 2) [(1 : ℚ), 2, 3, 4] 4 3 [("w", [10, 20]), ("b", [5])]
    [[⟨0, [("w", 0), ("b", 3)], [("w", [11, 22]), ("b", [9])], [], [3, 5], [1]⟩, ⟨1, [("w", 1), ("b", 0)], [("w", [12, 23]), ("b", [6])], [], [0], [1]⟩],
     [⟨2, [("w", 2), ("b", 1)], [("w", [13, 24]), ("b", [7])], [], [2], [9]⟩, ⟨3, [("w", 0), ("b", 0)], [("w", [11, 22]), ("b", [6])], [], [6], [6]⟩]] =
    .ok [("w", [10 + 1 / 2 * ((3 / 2 * 1 + -7 / 2 * 3 + 0 * 1) / 3), 20 + 1 / 2 * ((3 / 2 * 2 + -7 / 2 * 4 + 0 * 2) / 3)]),
      ("b", [5 + 1 / 2 * ((3 / 2 * 4 + -7 / 2 * 2 + 0 * 1) / 3)])] := by decide +kernel

/-! ### C147: units of the reward -/

/-- The rewards of the entry in other units: `a * x + b`. -/
def scale (a b : K) (e : Entry K) : Entry K := { e with posR := e.posR.map fun x => a * x + b, negR := e.negR.map fun x => a * x + b }

theorem avg_affine (a b : K) (l : List K) (hl : l ≠ []) : avg (l.map fun x => a * x + b) id = a * avg l id + b := by
  have hs : ∀ l : List K, (l.map fun x => a * x + b).sum = a * l.sum + b * (l.length : K) := by
    intro l
    induction l with
    | nil => simp
    | cons x l ih =>
      simp only [List.map_cons, List.sum_cons, ih, List.length_cons, Nat.cast_add, Nat.cast_one]
      ring
  have h0 : (l.length : K) ≠ 0 := by exact_mod_cast (List.length_pos_iff.2 hl).ne'
  unfold avg
  rw [List.map_id, List.map_id, hs, List.length_map]
  field_simp

theorem score_scale (a b : K) (ha : 0 < a) (e : Entry K) (he : e.posR ≠ [] ∧ e.negR ≠ []) : score (scale a b e) = a * score e + b := by
  unfold score scale
  dsimp only
  rw [avg_affine a b _ he.1, avg_affine a b _ he.2]
  have hm : Monotone fun x : K => a * x + b := by
    intro x y h
    have := mul_le_mul_of_nonneg_left h ha.le
    show a * x + b ≤ a * y + b
    linarith
  exact (hm.map_max).symm

theorem best_scale (a b : K) (ha : 0 < a) (u : Nat) (all : List (Entry K)) (hr : ∀ e ∈ all, e.posR ≠ [] ∧ e.negR ≠ []) :
    best u (all.map (scale a b)) = (best u all).map (scale a b) := by
  unfold best
  rw [List.filter_map]
  congr 1
  apply List.filter_congr
  intro e he
  rw [Function.comp_apply, List.countP_map]
  have : all.countP ((fun e' => decide (score (scale a b e) < score e')) ∘ scale a b) = all.countP fun e' => decide (score e < score e') := by
    apply List.countP_congr
    intro e' he'
    rw [Function.comp_apply, decide_eq_true_eq, decide_eq_true_eq, score_scale a b ha e (hr e he), score_scale a b ha e' (hr e' he')]
    rw [add_lt_add_iff_right, mul_lt_mul_iff_right₀ ha]
  rw [this]

/-- C147, what holds: rewards in other units, `a * x + b` with `0 < a`, give the same update, provided the deviation of the rewards of the used rollouts is
not taken for 0 in either case. -/
theorem C147_units_partial (std : List K → K) (close : K → Bool) (a b : K) (ha : 0 < a)
    (hstd : ∀ l, l ≠ [] → std (l.map fun x => a * x + b) = a * std l)
    (lr : K) (noise : List K) (n u : Nat) (θ : Params K) (members : List (List (Entry K)))
    (hn : members.flatten.length = n) (hu : 0 < u) (hun : u ≤ n) (hr : ∀ e ∈ members.flatten, e.posR ≠ [] ∧ e.negR ≠ [])
    (hi : ∀ e ∈ members.flatten, ∀ p ∈ θ, ∃ i, e.idx.lookup p.1 = some i)
    (hc : let σ := std (((best u members.flatten).map fun e => avg e.posR id) ++ (best u members.flatten).map fun e => avg e.negR id)
      close σ = false ∧ close (a * σ) = false) :
    managerUpdate std close lr noise n u θ (members.map fun w => w.map (scale a b)) = managerUpdate std close lr noise n u θ members := by
  have hflat : (members.map fun w => w.map (scale a b)).flatten = members.flatten.map (scale a b) := by rw [List.map_flatten]
  have hr' : ∀ e ∈ members.flatten.map (scale a b), e.posR ≠ [] ∧ e.negR ≠ [] := by
    intro e he
    obtain ⟨e', he', rfl⟩ := List.mem_map.1 he
    simpa [scale] using hr e' he'
  have hi' : ∀ e ∈ members.flatten.map (scale a b), ∀ p ∈ θ, ∃ i, e.idx.lookup p.1 = some i := by
    intro e he
    obtain ⟨e', he', rfl⟩ := List.mem_map.1 he
    exact hi e' he'
  rw [update_eq std close lr noise n u θ members hn hu hun hr hi,
    update_eq std close lr noise n u θ _ (by rw [hflat, List.length_map, hn]) hu hun (by rw [hflat]; exact hr') (by rw [hflat]; exact hi')]
  rw [hflat, best_scale a b ha u _ hr]
  have hbr : ∀ e ∈ best u members.flatten, e.posR ≠ [] ∧ e.negR ≠ [] := fun e he => hr e (List.mem_filter.1 he).1
  have hne := best_ne n u _ hn hu hun
  generalize best u members.flatten = B at *
  have hσ : divisor std close (B.map (scale a b)) = a * divisor std close B := by
    have hl : ((B.map (scale a b)).map fun e => avg e.posR id) ++ ((B.map (scale a b)).map fun e => avg e.negR id) =
        ((B.map fun e => avg e.posR id) ++ (B.map fun e => avg e.negR id)).map fun x => a * x + b := by
      simp only [List.map_append, List.map_map]
      congr 1
      · apply List.map_congr_left
        intro e he
        exact avg_affine a b _ (hbr e he).1
      · apply List.map_congr_left
        intro e he
        exact avg_affine a b _ (hbr e he).2
    unfold divisor
    dsimp only
    dsimp only at hc
    rw [hl, hstd _ (by simp [hne]), hc.1, hc.2]
    rfl
  rw [hσ]
  congr 1
  apply List.map_congr_left
  intro p _
  congr 2
  apply List.map_congr_left
  intro j _
  unfold avg
  rw [List.length_map, List.map_map]
  congr 2
  apply List.map_congr_left
  intro e he
  show _ * ((avg (e.negR.map fun x => a * x + b) id - avg (e.posR.map fun x => a * x + b) id) / _) = _
  rw [avg_affine a b _ (hbr e he).1, avg_affine a b _ (hbr e he).2]
  have : a * avg e.negR id + b - (a * avg e.posR id + b) = a * (avg e.negR id - avg e.posR id) := by ring
  rw [this, mul_div_mul_left _ _ ha.ne']
  rfl

end

/-- `np.std` of rewards in other units. -/
theorem npStd_affine (a b : ℝ) (ha : 0 < a) (l : List ℝ) (hl : l ≠ []) : npStd (l.map fun x => a * x + b) = a * npStd l := by
  have havg : ∀ l : List ℝ, average l = avg l id := fun l => by simp [average, avg]
  have hm : average (l.map fun x => a * x + b) = a * average l + b := by rw [havg, havg, avg_affine a b l hl]
  unfold npStd
  rw [hm, List.map_map]
  have : ((fun x => (x - (a * average l + b)) * (x - (a * average l + b))) ∘ fun x => a * x + b) =
      (fun x => a * a * x + 0) ∘ fun x => (x - average l) * (x - average l) := by
    funext x
    simp only [Function.comp_apply]
    ring
  rw [this, ← List.map_map, havg (List.map _ _), avg_affine (a * a) 0 _ (by simpa using hl), add_zero, Real.sqrt_mul (mul_self_nonneg a),
    Real.sqrt_mul_self ha.le, havg (List.map _ _)]

/-- C147, full statement: the update does not depend on the units of the reward. -/
def C147_full : Prop :=
  ∀ (a b lr : ℝ) (noise : List ℝ) (n u : Nat) (θ : Params ℝ) (members : List (List (Entry ℝ))), 0 < a →
    members.flatten.length = n → 0 < u → u ≤ n → (∀ e ∈ members.flatten, e.posR ≠ [] ∧ e.negR ≠ []) →
    (∀ e ∈ members.flatten, Perturbed noise θ e) →
    managerUpdate npStd npClose lr noise n u θ (members.map fun w => w.map (scale a b)) = managerUpdate npStd npClose lr noise n u θ members

/-- C147 for `np.std` and `np.isclose`: with a deviation above the tolerance in both units, the update is the same. -/
theorem C147_np_partial (a b : ℝ) (ha : 0 < a) (lr : ℝ) (noise : List ℝ) (n u : Nat) (θ : Params ℝ) (members : List (List (Entry ℝ)))
    (hn : members.flatten.length = n) (hu : 0 < u) (hun : u ≤ n) (hr : ∀ e ∈ members.flatten, e.posR ≠ [] ∧ e.negR ≠ [])
    (hp : ∀ e ∈ members.flatten, Perturbed noise θ e)
    (hc : let σ := npStd (((best u members.flatten).map fun e => avg e.posR id) ++ (best u members.flatten).map fun e => avg e.negR id)
      1 / 100000000 < σ ∧ 1 / 100000000 < a * σ) :
    managerUpdate npStd npClose lr noise n u θ (members.map fun w => w.map (scale a b)) = managerUpdate npStd npClose lr noise n u θ members := by
  have hcl : ∀ x : ℝ, 1 / 100000000 < x → npClose x = false := by
    intro x hx
    unfold npClose
    rw [decide_eq_false_iff_not, not_le]
    exact lt_of_lt_of_le hx (le_abs_self x)
  apply C147_units_partial npStd npClose a b ha (fun l hl => npStd_affine a b ha l hl) lr noise n u θ members hn hu hun hr
  · intro e he p hpm
    obtain ⟨k, hk, rfl⟩ := List.getElem_of_mem hpm
    obtain ⟨i, _, h, _⟩ := hp e he k θ[k].1 θ[k].2 (List.getElem?_eq_getElem hk)
    exact ⟨i, h⟩
  · exact ⟨hcl _ hc.1, hcl _ hc.2⟩

theorem npStd_pair (x y : ℝ) : npStd [x, y] = |x - y| / 2 := by
  unfold npStd average
  have : (List.map (fun z => (z - [x, y].sum / ([x, y].length : ℝ)) * (z - [x, y].sum / ([x, y].length : ℝ))) [x, y]).sum /
      ((List.map (fun z => (z - [x, y].sum / ([x, y].length : ℝ)) * (z - [x, y].sum / ([x, y].length : ℝ))) [x, y]).length : ℝ) =
      ((x - y) / 2) * ((x - y) / 2) := by
    simp only [List.map_cons, List.map_nil, List.sum_cons, List.sum_nil, List.length_cons, List.length_nil]
    push_cast
    ring
  rw [this, Real.sqrt_mul_self_eq_abs, abs_div]
  norm_num

/-- The rollout of the witness: its positive network had the reward `c`, its negative one 0. -/
def tiny (c : ℝ) : Entry ℝ := ⟨0, [("w", 0)], [("w", [1])], [("w", [-1])], [c], [0]⟩

theorem update_tiny (c : ℝ) : managerUpdate npStd npClose 1 [1] 1 1 [("w", [0])] [[tiny c]] =
    .ok [("w", [c / (if npClose (|c| / 2) then 1 else |c| / 2)])] := by
  have hb : best 1 [tiny c] = [tiny c] := by simp [best]
  have hσ : divisor npStd npClose [tiny c] = if npClose (|c| / 2) then 1 else |c| / 2 := by
    unfold divisor
    have : ([tiny c].map fun e => avg e.posR id) ++ ([tiny c].map fun e => avg e.negR id) = [c, 0] := by simp [tiny, avg]
    dsimp only
    rw [this, npStd_pair, sub_zero]
  have := update_eq npStd npClose 1 [1] 1 1 [("w", [0])] [[tiny c]] rfl (by omega) (by omega) (by simp [tiny]) (by simp [tiny])
  rw [this]
  have hf : [[tiny c]].flatten = [tiny c] := rfl
  rw [hf, hb, hσ]
  generalize (if npClose (|c| / 2) then (1 : ℝ) else |c| / 2) = σ
  simp [tiny, avg, get, neg_div]

/-- C147 fails: rewards 1 and 0 move the parameter of the witness by 2, rewards `1e-9` and 0 by `1e-9`. -/
theorem C147_violated_tiny :
    managerUpdate npStd npClose 1 [1] 1 1 [("w", [0])] [[tiny 1]] = .ok [("w", [2])] ∧
    managerUpdate npStd npClose 1 [1] 1 1 [("w", [0])] [[scale (1 / 1000000000) 0 (tiny 1)]] = .ok [("w", [1 / 1000000000])] := by
  constructor
  · rw [update_tiny, if_neg]
    · norm_num
    · unfold npClose
      rw [decide_eq_true_eq]
      norm_num
  · have : scale (1 / 1000000000) 0 (tiny 1) = tiny (1 / 1000000000) := by simp [scale, tiny]
    rw [this, update_tiny, if_pos]
    · norm_num
    · unfold npClose
      rw [decide_eq_true_eq]
      norm_num

theorem tiny_perturbed : Perturbed [1] [("w", [0])] (tiny 1) := by
  intro k name v hk
  cases k with
  | succ k => simp at hk
  | zero =>
    simp only [List.getElem?_cons_zero, Option.some.injEq, Prod.mk.injEq] at hk
    obtain ⟨rfl, rfl⟩ := hk
    refine ⟨0, [1], by simp [tiny], by simp [tiny], by simp, by simp, ?_⟩
    intro j x δ hx hδ
    cases j with
    | succ j => simp at hx
    | zero =>
      simp at hx hδ
      simp [← hx, ← hδ]

theorem C147_violated : ¬ C147_full := by
  intro h
  have := h (1 / 1000000000) 0 1 [1] 1 1 [("w", [0])] [[tiny 1]] (by norm_num) rfl (by omega) (by omega) (by simp [tiny])
    (by
      intro e he
      have : e = tiny 1 := by simpa using he
      rw [this]
      exact tiny_perturbed)
  have h' : ([[tiny 1]].map fun w => w.map (scale (1 / 1000000000) 0)) = [[scale (1 / 1000000000) 0 (tiny 1)]] := rfl
  rw [h', C147_violated_tiny.1, C147_violated_tiny.2] at this
  simp only [Except.ok.injEq, List.cons.injEq, Prod.mk.injEq, true_and, and_true] at this
  norm_num at this

/-- The hypotheses of `C147_np_partial` are met by the entry of the witness in units with the factor 3. -/
example : managerUpdate npStd npClose 1 [1] 1 1 [("w", [0])] [[scale 3 7 (tiny 1)]] = .ok [("w", [2])] := by
  rw [← C147_violated_tiny.1]
  refine C147_np_partial 3 7 (by norm_num) 1 [1] 1 1 [("w", [0])] [[tiny 1]] rfl (by omega) (by omega) (by simp [tiny]) ?_ ?_
  · intro e he
    have : e = tiny 1 := by simpa using he
    rw [this]
    exact tiny_perturbed
  · have hb : best 1 [[tiny 1]].flatten = [tiny 1] := by simp [best]
    have : ([tiny 1].map fun e => avg e.posR id) ++ ([tiny 1].map fun e => avg e.negR id) = [1, 0] := by simp [tiny, avg]
    dsimp only
    rw [hb, this, npStd_pair]
    norm_num

end Machin.Ars
