import Verif.Impala.Lemmas
import Mathlib.Algebra.Order.Field.Rat
import Mathlib.Tactic.Linarith

/-! # C50, C51: IMPALA -/

namespace Machin.Impala

open Replay

/-- A member of the group before sampling: capacity, history of `store_episode` calls, draws. -/
structure Origin (ι : Type) where
  cap : Nat
  history : List (List (Item ι))
  choices : List Nat → Nat → List Nat

/-- The member with that origin. -/
def Origin.member {ι σ : Type} (conv : ι → Except Err σ) (o : Origin ι) : Member (Step σ) :=
  ⟨run conv (Buffer.new (Step σ) o.cap) o.history, o.choices⟩

/-- Contract of `random.choices(pop, k=k)` for `k ≤ len(pop)`. -/
def Choices (choices : List Nat → Nat → List Nat) : Prop :=
  ∀ pop k, k ≤ pop.length → (choices pop k).length = k ∧ ∀ x ∈ choices pop k, x ∈ pop

/-- What the property says about one group: every member contributes `min (live episodes) k` whole live episodes; if
there is any, the sampled steps are the contents of these episodes one after the other, and the recovered lengths are
their lengths. (With no live episode at all there is nothing to recover.) -/
def Recovers {ι σ : Type} (conv : ι → Except Err σ) (os : List (Origin ι)) (batchSize : Nat) : Prop :=
  ∃ picked : List (List (List σ)),
    List.Forall₂ (fun o p => p.length = min (Spec.live conv o.cap o.history).length (Dist.localSize batchSize os.length) ∧
      ∀ ep ∈ p, ep ∈ Spec.live conv o.cap o.history) os picked ∧
    (picked.flatten ≠ [] → ∃ batch lengths, updateStart (os.map (Origin.member conv)) batchSize = .ok (batch, lengths) ∧
      batch.map (·.body) = picked.flatten.flatten ∧ lengths = picked.flatten.map List.length)

/-- C50, full statement: for every group and all histories. -/
def C50_full : Prop :=
  ∀ (ι σ : Type) (conv : ι → Except Err σ) (os : List (Origin ι)) (batchSize : Nat),
    os ≠ [] → (∀ o ∈ os, 1 ≤ o.cap ∧ Choices o.choices) → Recovers conv os batchSize

theorem member_sample {ι σ : Type} (conv : ι → Except Err σ) (o : Origin ι) (k : Nat) (h1 : 1 ≤ o.cap)
    (hc : Choices o.choices) (hle : ∀ ep ∈ o.history, ep.length ≤ o.cap) :
    ∃ y : Nat × List (Step σ), sampleEpisode (o.member conv).choices (o.member conv).buf k = .ok y ∧
      ∃ p : List (List σ), p.length = min (Spec.live conv o.cap o.history).length k ∧ y.1 = p.length ∧
        (∀ ep ∈ p, ep ∈ Spec.live conv o.cap o.history) ∧ y.2 = (p.map stamp).flatten := by
  have hb := run_inv conv o.history _ _ (BInv.new (Step σ) h1) hle
  rw [List.nil_append] at hb
  have hread := hb.read.1
  rw [keep_map_len stamp length_stamp, ← live_eq conv o.cap o.history hle] at hread
  have hl : (o.member conv).buf.eth.length = (Spec.live conv o.cap o.history).length := by
    have := congrArg List.length hread
    simp only [PyDict.values, List.length_map] at this
    exact this
  have hkl : (o.member conv).buf.eth.keys.length = (Spec.live conv o.cap o.history).length := by
    rw [← hl]; simp [PyDict.keys]
  obtain ⟨c1, c2⟩ := hc (o.member conv).buf.eth.keys (min (o.member conv).buf.eth.length k) (by omega)
  obtain ⟨eps, e1, e2, e3⟩ := fetchEpisodes_spec (o.member conv).buf _ hread _ c2
  have : ∃ p : List (List σ), eps = p.map stamp ∧ ∀ ep ∈ p, ep ∈ Spec.live conv o.cap o.history := by
    clear e1 e3
    induction eps with
    | nil => exact ⟨[], rfl, by simp⟩
    | cons e eps ih =>
      obtain ⟨p, p1, p2⟩ := ih (fun x hx => e2 x (by simp [hx]))
      obtain ⟨q, q1, q2⟩ := List.mem_map.mp (e2 e (by simp))
      refine ⟨q :: p, by simp [p1, q2], ?_⟩
      intro x hx
      rcases List.mem_cons.mp hx with rfl | hx
      · exact q1
      · exact p2 x hx
  obtain ⟨p, p1, p2⟩ := this
  refine ⟨(min (o.member conv).buf.eth.length k, eps.flatten), ?_, p, ?_, ?_, p2, by rw [p1]⟩
  · unfold sampleEpisode
    have : (o.member conv).choices = o.choices := rfl
    simp only [this, e3]
  · rw [p1, List.length_map, c1, hl] at e1
    exact e1
  · rw [p1, List.length_map, c1] at e1
    exact e1.symm

/-- C50 for histories whose episodes all fit into the member's buffer. Missing: histories with an episode longer than the
capacity, for which the property fails (`C50_violated`). -/
theorem C50_whole_episodes_partial {ι σ : Type} (conv : ι → Except Err σ) (os : List (Origin ι)) (batchSize : Nat)
    (hne : os ≠ []) (hos : ∀ o ∈ os, 1 ≤ o.cap ∧ Choices o.choices)
    (hle : ∀ o ∈ os, ∀ ep ∈ o.history, ep.length ≤ o.cap) : Recovers conv os batchSize := by
  unfold Recovers
  generalize hk : Dist.localSize batchSize os.length = k
  obtain ⟨ys, y1, y2⟩ := waitAll_forall
    (fun (o : Origin ι) (y : Nat × List (Step σ)) => ∃ p : List (List σ),
      p.length = min (Spec.live conv o.cap o.history).length k ∧ y.1 = p.length ∧
        (∀ ep ∈ p, ep ∈ Spec.live conv o.cap o.history) ∧ y.2 = (p.map stamp).flatten)
    (fun o => sampleEpisode (o.member conv).choices (o.member conv).buf k) os
    (fun o ho => member_sample conv o k (hos o ho).1 (hos o ho).2 (hle o ho))
  have : ∃ picked : List (List (List σ)),
      List.Forall₂ (fun o p => p.length = min (Spec.live conv o.cap o.history).length k ∧
        ∀ ep ∈ p, ep ∈ Spec.live conv o.cap o.history) os picked ∧
      (ys.map (·.2)).flatten = (picked.flatten.map stamp).flatten ∧ (∀ ep ∈ picked.flatten, ep ≠ []) := by
    clear y1 hk hne hos hle
    induction y2 with
    | nil => exact ⟨[], .nil, rfl, by simp⟩
    | @cons o y os ys h _ ih =>
      obtain ⟨picked, q1, q2, q3⟩ := ih
      obtain ⟨p, p1, p2, p3, p4⟩ := h
      refine ⟨p :: picked, .cons ⟨p1, p3⟩ q1, ?_, ?_⟩
      · simp [p4, q2]
      · intro ep hep
        rw [List.flatten_cons] at hep
        rcases List.mem_append.mp hep with hep | hep
        · exact live_ne_nil conv o.cap o.history ep (p3 ep hep)
        · exact q3 ep hep
  obtain ⟨picked, q1, q2, q3⟩ := this
  refine ⟨picked, q1, ?_⟩
  intro hpne
  refine ⟨(picked.flatten.map stamp).flatten, picked.flatten.map List.length, ?_, ?_, rfl⟩
  · have hb0 : (picked.flatten.map stamp).flatten ≠ [] := by
      obtain ⟨ep, rest, he⟩ := List.exists_cons_of_ne_nil hpne
      have := q3 ep (by rw [he]; simp)
      rw [he, List.map_cons, List.flatten_cons]
      intro hn
      have hz := (List.append_eq_nil_iff.mp hn).1
      have := congrArg List.length hz
      rw [length_stamp] at this
      simp at this
      contradiction
    have hs : sampleBatch (os.map (Origin.member conv)) batchSize =
        .ok ((ys.map (·.1)).sum, some (picked.flatten.map stamp).flatten) := by
      unfold sampleBatch
      rw [List.length_map, if_neg (by simpa using hne)]
      simp only [hk, List.map_map]
      have e : (fun m : Member (Step σ) => sampleEpisode m.choices m.buf k) ∘ Origin.member conv =
          fun o : Origin ι => sampleEpisode (o.member conv).choices (o.member conv).buf k := rfl
      rw [e, y1]
      simp only [q2, if_neg hb0]
    unfold updateStart
    rw [hs]
    simp only [lens_stamps _ q3]
    rw [if_neg]
    have : ((picked.flatten.map stamp).flatten).length = (picked.flatten.map List.length).sum := by
      rw [List.length_flatten, List.map_map]
      congr 1
      apply List.map_congr_left
      intro l _
      simp
    rw [this]
    simp
  · rw [List.map_flatten, List.map_map]
    have : (List.map (fun x : Step σ => x.body) ∘ stamp) = id := by
      funext l
      exact body_stamp l
    rw [this, List.map_id]

/-- The contract is satisfiable. -/
theorem choices_head : Choices (fun pop k => List.replicate k (pop.headD 0)) := by
  intro pop k hk
  refine ⟨by simp, ?_⟩
  intro x hx
  obtain ⟨hk0, rfl⟩ := List.mem_replicate.1 hx
  cases pop with
  | nil => simp at hk; omega
  | cons a l => simp

/-- Contents used in the examples: `0` is invalid. -/
abbrev exConv : Nat → Except Err Nat := fun x => if x = 0 then .error .value else .ok x

/-- A group of two members: the first evicted its first episode and rejected two. -/
abbrev exGroup : List (Origin Nat) :=
  [⟨5, [[.dict 1, .dict 2], [.dict 3, .dict 0], [.trans 4 false, .dict 5], [.trans 4 true, .dict 5], [.dict 6, .dict 7]],
    fun pop k => List.replicate k (pop.headD 0)⟩,
   ⟨4, [[.dict 8, .dict 9, .dict 10], [.dict 11]], fun pop k => List.replicate k (pop.headD 0)⟩]

example : (∀ o ∈ exGroup, 1 ≤ o.cap ∧ Choices o.choices) ∧ (∀ o ∈ exGroup, ∀ ep ∈ o.history, ep.length ≤ o.cap) := by
  refine ⟨?_, by decide⟩
  intro o ho
  simp only [List.mem_cons, List.not_mem_nil, or_false] at ho
  rcases ho with rfl | rfl
  · exact ⟨by decide, choices_head⟩
  · exact ⟨by decide, choices_head⟩

example : updateStart (exGroup.map (Origin.member exConv)) 2 =
    .ok ([⟨4, 2⟩, ⟨5, 0⟩, ⟨8, 3⟩, ⟨9, 0⟩, ⟨10, 0⟩], [2, 3]) := by
  decide +kernel

/-- One member of capacity 2: a stored episode, then one that is too long. The sampled steps carry no length and the check
in `update()` raises `RuntimeError`. -/
theorem C50_violated_too_long : updateStart
    ([⟨2, [[.dict 1, .dict 2], [.dict 3, .dict 4, .dict 5]], fun pop k => List.replicate k (pop.headD 0)⟩].map
      (Origin.member exConv)) 1 = .error .runtime := by
  decide +kernel

theorem C50_violated : ¬ C50_full := by
  intro h
  obtain ⟨picked, h1, h2⟩ := h Nat Nat exConv
    [⟨2, [[.dict 1, .dict 2], [.dict 3, .dict 4, .dict 5]], fun pop k => List.replicate k (pop.headD 0)⟩] 1 (by simp)
    (by intro o ho; simp only [List.mem_cons, List.not_mem_nil, or_false] at ho; subst ho; exact ⟨by decide, choices_head⟩)
  have hp : picked.flatten ≠ [] := by
    cases h1 with
    | cons hp hr =>
      rename_i p ps
      have hl : p.length = min (Spec.live exConv 2 [[Item.dict 1, .dict 2], [.dict 3, .dict 4, .dict 5]]).length
        (Dist.localSize 1 1) := hp.1
      rw [show min (Spec.live exConv 2 [[Item.dict 1, .dict 2], [.dict 3, .dict 4, .dict 5]]).length
        (Dist.localSize 1 1) = 1 by decide +kernel] at hl
      intro hn
      rw [List.flatten_cons] at hn
      rw [(List.append_eq_nil_iff.mp hn).1] at hl
      cases hl
  obtain ⟨batch, lengths, h3, -, -⟩ := h2 hp
  rw [C50_violated_too_long] at h3
  cases h3

/-- A group without live episodes: the sampled batch is `None` and `update()` raises `TypeError`. -/
example : updateStart ([⟨5, [], fun pop k => List.replicate k (pop.headD 0)⟩].map (Origin.member exConv)) 3 = .error .type := by
  decide +kernel

/-! ### C51 -/

section

variable {R : Type} [CommRing R] [LinearOrder R]

/-- The lengths used are those recovered from the batch. In a batch of whole episodes, the targets (and the shifted
targets) of each episode are those computed for the episode alone. -/
theorem C51_locality (h : Hyper R) (eps : List (List (Datum R))) (hne : ∀ e ∈ eps, e ≠ []) :
    vtrace h eps.flatten (eps.map List.length) =
      ((eps.map fun e => (vtrace h e [e.length]).1).flatten, (eps.map fun e => (vtrace h e [e.length]).2).flatten) := by
  have := epLoop_spec h eps hne [] [] [] rfl rfl
  rw [List.nil_append, List.nil_append, List.nil_append, List.nil_append] at this
  exact this

/-- What the targets of one episode are: the last one is 0, the others follow the v-trace recursion
`v_t = V_t + rho_t (r_t + g V'_t - V_t) + g c_t (v_{t+1} - V_{t+1})`. -/
def IsTarget (h : Hyper R) : List (Datum R) → List R → Prop
  | [], vs => vs = []
  | [_], vs => vs = [0]
  | d :: d' :: ds, vs => ∃ v v' vs', vs = v :: v' :: vs' ∧
      v = d.value + min h.clipRho d.ratio * (d.reward + h.discount * (if d.terminal then 0 else d.nextValue) - d.value) +
        h.discount * min h.clipC d.ratio * (v' - d'.value) ∧
      IsTarget h (d' :: ds) (v' :: vs')

theorem isTarget_of_get (h : Hyper R) (ep : List (Datum R)) (vs : List R) (hl : vs.length = ep.length)
    (hlast : ∀ i, i + 1 = ep.length → vs[i]? = some 0)
    (hrec : ∀ i d d', i + 1 < ep.length → ep[i]? = some d → ep[i + 1]? = some d' →
      vs[i]? = some (stepTarget h d ((vs[i + 1]?).getD 0) d'.value)) : IsTarget h ep vs := by
  induction ep generalizing vs with
  | nil => exact List.length_eq_zero_iff.mp hl
  | cons d ds ih =>
    cases ds with
    | nil =>
      match vs, hl with
      | [v], _ =>
        have := hlast 0 rfl
        simp at this
        show _ = _
        rw [this]
    | cons d' ds =>
      match vs, hl with
      | v :: v' :: vs', hl =>
        refine ⟨v, v', vs', rfl, ?_, ?_⟩
        · have := hrec 0 d d' (by simp) rfl rfl
          simp at this
          rw [this]
          rfl
        · apply ih
          · simpa using hl
          · intro i hi
            have := hlast (i + 1) (by simp at hi ⊢; exact hi)
            simpa using this
          · intro i e e' hi he he'
            have := hrec (i + 1) e e' (by simp at hi ⊢; exact hi) (by simpa using he) (by simpa using he')
            simpa using this

theorem vtrace_alone (h : Hyper R) (ep : List (Datum R)) :
    (vtrace h ep [ep.length]).1 = revLoop h ep 0 (ep.length - 1) (List.replicate ep.length 0) := rfl

/-- The targets of an episode alone follow the v-trace recursion, with 0 for the last step. -/
theorem C51_recursion (h : Hyper R) (ep : List (Datum R)) (hne : ep ≠ []) : IsTarget h ep (vtrace h ep [ep.length]).1 := by
  have hp := List.length_pos_iff.mpr hne
  rw [vtrace_alone h ep]
  obtain ⟨g1, g2⟩ := revLoop_get h ep (ep.length - 1) (List.replicate ep.length 0) (by simp) (by omega)
  apply isTarget_of_get
  · rw [length_revLoop]; simp
  · intro i hi
    rw [g1 i (by omega), List.getElem?_replicate, if_pos (by omega)]
  · intro i d d' hi hd hd'
    exact g2 i d d' (by omega) hd hd'

/-- The shifted targets of an episode alone: the targets without the first one, then 0. -/
theorem C51_shifted (h : Hyper R) (ep : List (Datum R)) (hne : ep ≠ []) :
    (vtrace h ep [ep.length]).2 = (vtrace h ep [ep.length]).1.tail ++ [0] := by
  have hp := List.length_pos_iff.mpr hne
  have : (vtrace h ep [ep.length]).2 =
      shiftCopy 0 ep.length (vtrace h ep [ep.length]).1 (List.replicate ep.length 0) := rfl
  rw [this, vtrace_alone h ep]
  have hl : (revLoop h ep 0 (ep.length - 1) (List.replicate ep.length 0)).length = ep.length := by
    rw [length_revLoop]; simp
  unfold shiftCopy
  rw [List.take_zero, List.nil_append, Nat.zero_add, List.drop_one, List.take_of_length_le (by simp [hl]), Nat.zero_add,
    List.drop_replicate]
  rw [show ep.length - (ep.length - 1) = 1 by omega]
  rfl

/-- The factor of the log-probability of step `t` in the policy loss: `min(clipRho, ratio_t) * (r_t + g * vss_t - V_t)`, where `vss_t` is the
target of the next step of the same episode, and 0 at its end. -/
theorem C51_advantage (h : Hyper R) (data : List (Datum R)) (vss : List R) (hl : vss.length = data.length) (t : Nat) (d : Datum R) (v : R)
    (hd : data[t]? = some d) (hv : vss[t]? = some v) :
    (advantages h data vss).length = data.length ∧
    (advantages h data vss)[t]? = some (min h.clipRho d.ratio * (d.reward + h.discount * v - d.value)) := by
  refine ⟨by simp [advantages, hl], ?_⟩
  simp [advantages, List.getElem?_zipWith, hd, hv, rhoOf, min_comm]

example : advantages (⟨1 / 2, 1, 2⟩ : Hyper Rat) [⟨1, 3, 0, 4, false⟩] [2] = [2] := by decide +kernel

/-- The ratios are 1 and not clipped, and the next value of each step but the last is the value of the following step (which it
is when the next state of a step is the state of the following one and only the last step may be terminal). -/
def OnPolicy (h : Hyper R) : List (Datum R) → Prop
  | [] => True
  | [d] => min h.clipC d.ratio = 1 ∧ min h.clipRho d.ratio = 1
  | d :: d' :: ds => min h.clipC d.ratio = 1 ∧ min h.clipRho d.ratio = 1 ∧ d.terminal = false ∧ d.nextValue = d'.value ∧
      OnPolicy h (d' :: ds)

/-- `v_t = r_t + g v_{t+1}` for every step, with `v = r` for the last one if it is terminal. -/
def Discounted (g : R) : List (Datum R) → List R → Prop
  | [], _ => True
  | [d], vs => d.terminal = true → vs = [d.reward]
  | d :: d' :: ds, vs => ∃ v v' vs', vs = v :: v' :: vs' ∧ v = d.reward + g * v' ∧ Discounted g (d' :: ds) (v' :: vs')

/-- The same for every step but the last. -/
def DiscountedInner (g : R) : List (Datum R) → List R → Prop
  | [], _ => True
  | [_], vs => vs = [0]
  | d :: d' :: ds, vs => ∃ v v' vs', vs = v :: v' :: vs' ∧ v = d.reward + g * v' ∧ DiscountedInner g (d' :: ds) (v' :: vs')

/-- C51, full statement. -/
def C51_full : Prop :=
  ∀ (h : Hyper Rat) (eps : List (List (Datum Rat))), (∀ e ∈ eps, e ≠ []) →
    (vtrace h eps.flatten (eps.map List.length)).1 = (eps.map fun e => (vtrace h e [e.length]).1).flatten ∧
    ∀ e ∈ eps, OnPolicy h e → Discounted h.discount e (vtrace h e [e.length]).1

/-- With ratios 1 the recursion `v_t = r_t + g v_{t+1}` holds for all steps but the last, whose target is 0. Missing: the last
step, for which it fails (`C51_violated`). -/
theorem C51_on_policy_partial (h : Hyper R) (ep : List (Datum R)) (hne : ep ≠ []) (hon : OnPolicy h ep) :
    DiscountedInner h.discount ep (vtrace h ep [ep.length]).1 := by
  have := C51_recursion h ep hne
  generalize (vtrace h ep [ep.length]).1 = vs at this
  clear hne
  induction ep generalizing vs with
  | nil => trivial
  | cons d ds ih =>
    cases ds with
    | nil => exact this
    | cons d' ds =>
      obtain ⟨v, v', vs', e1, e2, e3⟩ := this
      obtain ⟨o1, o2, o3, o4, o5⟩ := hon
      refine ⟨v, v', vs', e1, ?_, ih o5 _ e3⟩
      rw [e2, o1, o2, o3, o4]
      simp only [Bool.false_eq_true, if_false]
      ring

/-- The reward of the last step does not enter any target of the episode, nor does whether it is terminal. -/
theorem C51_violated_last_reward (h : Hyper R) (ep : List (Datum R)) (d d' : Datum R) (hv : d.value = d'.value) :
    (vtrace h (ep ++ [d]) [(ep ++ [d]).length]).1 = (vtrace h (ep ++ [d']) [(ep ++ [d']).length]).1 := by
  have uniq : ∀ (l : List (Datum R)) (a b : Datum R) (vs ws : List R), a.value = b.value → IsTarget h (l ++ [a]) vs →
      IsTarget h (l ++ [b]) ws → vs = ws := by
    intro l
    induction l with
    | nil => intro a b vs ws _ h1 h2; exact Eq.trans h1 (Eq.symm h2)
    | cons x l ih =>
      intro a b vs ws hab h1 h2
      cases l with
      | nil =>
        obtain ⟨v, v', vs', e1, e2, e3⟩ := h1
        obtain ⟨w, w', ws', f1, f2, f3⟩ := h2
        have e3' : v' :: vs' = [0] := e3
        have f3' : w' :: ws' = [0] := f3
        cases e3'
        cases f3'
        rw [e1, f1, e2, f2, hab]
      | cons y l =>
        obtain ⟨v, v', vs', e1, e2, e3⟩ := h1
        obtain ⟨w, w', ws', f1, f2, f3⟩ := h2
        have := ih a b _ _ hab e3 f3
        cases this
        rw [e1, f1, e2, f2]
  exact uniq ep d d' _ _ hv (C51_recursion h _ (by simp)) (C51_recursion h _ (by simp))

end

/-- Two steps with reward 1, discount 1, critic value 0: the targets are `1, 0` instead of `2, 1`. -/
theorem C51_violated_sample :
    (vtrace (⟨1, 1, 1⟩ : Hyper Rat) [⟨1, 0, 0, 1, false⟩, ⟨1, 0, 0, 1, true⟩] [2]).1 = [1, 0] := by
  decide +kernel

theorem C51_violated : ¬ C51_full := by
  intro h
  have := (h ⟨1, 1, 1⟩ [[⟨1, 0, 0, 1, false⟩, ⟨1, 0, 0, 1, true⟩]] (by simp)).2
    [⟨1, 0, 0, 1, false⟩, ⟨1, 0, 0, 1, true⟩] (by simp)
    ⟨by decide +kernel, by decide +kernel, rfl, rfl, by decide +kernel, by decide +kernel⟩
  obtain ⟨v, v', vs', e1, e2, e3⟩ := this
  have e4 := C51_violated_sample
  rw [show ([⟨1, 0, 0, 1, false⟩, ⟨1, 0, 0, 1, true⟩] : List (Datum Rat)).length = 2 from rfl, e4] at e1
  have e5 : v' :: vs' = [(1 : Rat)] := e3 rfl
  rw [e5] at e1
  revert e1
  simp

/-- Two episodes in one batch, off policy: targets of the batch. -/
example : vtrace (⟨1 / 2, 1, 2⟩ : Hyper Rat)
    ([[⟨3, 1, 2, 1, false⟩, ⟨1, 2, 0, 1, true⟩], [⟨1 / 2, 4, 0, 1, false⟩, ⟨1, 2, 0, 5, true⟩]] : List (List (Datum Rat))).flatten [2, 2] =
    ([2, 0, 2, 0], [0, 0, 0, 0]) := by
  decide +kernel

/-- An on-policy episode of three steps. -/
example : OnPolicy (⟨1 / 2, 1, 1⟩ : Hyper Rat) [⟨1, 3, 5, 1, false⟩, ⟨1, 5, 7, 2, false⟩, ⟨1, 7, 0, 4, true⟩] ∧
    (vtrace (⟨1 / 2, 1, 1⟩ : Hyper Rat) [⟨1, 3, 5, 1, false⟩, ⟨1, 5, 7, 2, false⟩, ⟨1, 7, 0, 4, true⟩] [3]).1 = [2, 2, 0] := by
  refine ⟨⟨by decide +kernel, by decide +kernel, rfl, rfl, by decide +kernel, by decide +kernel, rfl, rfl, by decide +kernel,
    by decide +kernel⟩, by decide +kernel⟩

end Machin.Impala
