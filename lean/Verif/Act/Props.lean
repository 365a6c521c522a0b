import Verif.Act.Model
import Verif.Algo.PropsProb
import Verif.Algo.PropsValue
import Mathlib.Tactic.NormNum

/-! # Properties of the acting methods: C140–C143 -/

namespace Machin.Act

open Machin.Batch (Arr bshape bindex)
open Machin.Algo.Spec (FirstMax)

/-! ### C140: noisy actions in every documented mode -/

/-- The documented modes. -/
def documented : List String := ["uniform", "normal", "clipped_normal", "ou"]

/-- C140, full statement: with any documented mode and the default noise parameter, the first call gives a noisy version of the action of the
requested network, of its shape, together with its other results. -/
def C140_full : Prop :=
  ∀ (actor target : Net Unit Unit) (mode : String) (useTarget : Bool) (d : Draws), mode ∈ documented →
    ∃ a, (actWithNoise actor target none () defaultParam 1 mode useTarget d).2 =
        .ok (a, (if useTarget then target.call () else actor.call ()).2) ∧
      a.rshape = (if useTarget then target.call () else actor.call ()).1.rshape

/-- Mode `"clipped_normal"` raises an `IndexError` with the default parameter, whatever the action is, and mode `"ou"` raises a `TypeError` if no
generator exists; so does every further call. -/
theorem C140_violated_defaults {S O : Type} (actor target : Net S O) (gen : Option (List Nat)) (state : S) (ratio : ℚ) (useTarget : Bool) (d : Draws) :
    actWithNoise actor target gen state defaultParam ratio "clipped_normal" useTarget d = (gen, .error .index) ∧
    actWithNoise actor target none state defaultParam ratio "ou" useTarget d = (none, .error .type) := by
  constructor <;> cases useTarget <;> simp [actWithNoise, addNoiseMode, defaultParam, addClipped, columnsOf, readFour, readTwo, item, addOu]

/-- C140 is violated. -/
theorem C140_violated : ¬ C140_full := by
  intro h
  obtain ⟨a, ha, _⟩ := h ⟨fun _ => (⟨[1, 1], fun _ => 0⟩, [])⟩ ⟨fun _ => (⟨[1, 1], fun _ => 0⟩, [])⟩ "ou" false ⟨fun _ => 0, fun _ => 0, fun _ => 0⟩
    (by simp [documented])
  rw [(C140_violated_defaults _ _ none () 1 false _).2] at ha
  cases ha

theorem replicate_getD {P : Type} [Inhabited P] (p : P) (n i : Nat) (h : i < n) : (List.replicate n p).getD i default = p := by
  simp [List.getD_eq_getElem?_getD, h]

/-- C140, what holds: one tuple `(a, b)` in mode `"uniform"` adds `(u (b - a) + a) ratio` to the entry at every position of the action of the
requested network, in mode `"normal"` it adds `(u b + a) ratio`, where `u` is the draw of `t.rand` for the position; the shape and the other results
of the network stay, and the shared generator is not touched. In particular this holds for the default parameter. -/
theorem C140_tuple_partial {S O : Type} (actor target : Net S O) (gen : Option (List Nat)) (state : S) (a b ratio : ℚ) (useTarget : Bool) (d : Draws)
    (net : Arr ℚ × List O) (hnet : net = if useTarget then target.call state else actor.call state) :
    (∃ r, actWithNoise actor target gen state (.floats [a, b]) ratio "uniform" useTarget d = (gen, .ok (r, net.2)) ∧ r.rshape = net.1.rshape ∧
      ∀ pos : List Nat, pos.headD 0 < net.1.rshape.headD 0 → r.get pos = net.1.get pos + (d.u pos * (b - a) + a) * ratio) ∧
    (∃ r, actWithNoise actor target gen state (.floats [a, b]) ratio "normal" useTarget d = (gen, .ok (r, net.2)) ∧ r.rshape = net.1.rshape ∧
      ∀ pos : List Nat, pos.headD 0 < net.1.rshape.headD 0 → r.get pos = net.1.get pos + (d.u pos * b + a) * ratio) := by
  have e : ∀ mode, actWithNoise actor target gen state (.floats [a, b]) ratio mode useTarget d =
      match addNoiseMode gen mode net.1 (.floats [a, b]) ratio d with
      | (gen, .error e) => (gen, .error e)
      | (gen, .ok r) => (gen, .ok (r, net.2)) := by
    intro mode; rw [hnet]; rfl
  constructor
  · refine ⟨addNoise (fun p x => x * (p.2 - p.1) + p.1) (List.replicate (width net.1) (a, b)) net.1 ratio d.u,
      by rw [e]; simp [addNoiseMode, addUniform, columnsOf, readTwo, item], rfl, ?_⟩
    intro pos hpos
    simp only [addNoise, width]
    rw [replicate_getD _ _ _ hpos]
  · refine ⟨addNoise (fun p x => x * p.2 + p.1) (List.replicate (width net.1) (a, b)) net.1 ratio d.u,
      by rw [e]; simp [addNoiseMode, addNormal, columnsOf, readTwo, item], rfl, ?_⟩
    intro pos hpos
    simp only [addNoise, width]
    rw [replicate_getD _ _ _ hpos]

/-- C140, what holds for the default parameter and ratio: in the modes `"uniform"` and `"normal"` the draw of `t.rand` itself is added at every position. -/
theorem C140_default_partial {S O : Type} (actor target : Net S O) (gen : Option (List Nat)) (state : S) (useTarget : Bool) (d : Draws)
    (net : Arr ℚ × List O) (hnet : net = if useTarget then target.call state else actor.call state) (mode : String) (hm : mode = "uniform" ∨ mode = "normal") :
    ∃ r, actWithNoise actor target gen state defaultParam 1 mode useTarget d = (gen, .ok (r, net.2)) ∧ r.rshape = net.1.rshape ∧
      ∀ pos : List Nat, pos.headD 0 < net.1.rshape.headD 0 → r.get pos = net.1.get pos + d.u pos := by
  have h := C140_tuple_partial actor target gen state 0 1 1 useTarget d net hnet
  simp only [sub_zero, mul_one, add_zero] at h
  rcases hm with rfl | rfl
  · exact h.1
  · exact h.2

/-- C140: a mode that is not documented is refused with a `ValueError`. -/
theorem C140_unknown_partial {S O : Type} (actor target : Net S O) (gen : Option (List Nat)) (state : S) (arg : PyArg) (ratio : ℚ) (useTarget : Bool)
    (d : Draws) (mode : String) (h : mode ∉ documented) : actWithNoise actor target gen state arg ratio mode useTarget d = (gen, .error .value) := by
  simp only [documented, List.mem_cons, List.not_mem_nil, or_false, not_or] at h
  cases useTarget <;> simp [actWithNoise, addNoiseMode, h.1, h.2.1, h.2.2.1, h.2.2.2]

theorem mapE_forall {α β : Type} (f : α → Except Err β) (g : α → β) : ∀ l : List α, (∀ x ∈ l, f x = .ok (g x)) → Algo.mapE f l = .ok (l.map g)
  | [], _ => rfl
  | x :: xs, h => by
    simp only [Algo.mapE, h x (by simp), mapE_forall f g xs fun y hy => h y (by simp [hy]), List.map_cons]

/-- C140: one tuple per column, `(a, b)` for column `i` of the last dimension, in modes `"uniform"` and `"normal"` (the latter with draws of
`t.randn`); too few or too many tuples are refused with a `ValueError`. -/
theorem C140_columns_partial (gen : Option (List Nat)) (action : Arr ℚ) (ps : List (ℚ × ℚ)) (hne : ps ≠ []) (ratio : ℚ) (d : Draws) :
    (ps.length = action.rshape.headD 0 →
      (∃ r, addNoiseMode gen "uniform" action (.tuples (ps.map fun p => [p.1, p.2])) ratio d = (gen, .ok r) ∧ r.rshape = action.rshape ∧
        ∀ (pos : List Nat) (p : ℚ × ℚ), ps[pos.headD 0]? = some p → r.get pos = action.get pos + (d.u pos * (p.2 - p.1) + p.1) * ratio) ∧
      (∃ r, addNoiseMode gen "normal" action (.tuples (ps.map fun p => [p.1, p.2])) ratio d = (gen, .ok r) ∧ r.rshape = action.rshape ∧
        ∀ (pos : List Nat) (p : ℚ × ℚ), ps[pos.headD 0]? = some p → r.get pos = action.get pos + (d.z pos * p.2 + p.1) * ratio)) ∧
    (ps.length ≠ action.rshape.headD 0 → ∀ mode ∈ ["uniform", "normal"],
      addNoiseMode gen mode action (.tuples (ps.map fun p => [p.1, p.2])) ratio d = (gen, .error .value)) := by
  obtain ⟨p0, ps', rfl⟩ := List.exists_cons_of_ne_nil hne
  have hcols : (p0 :: ps').length = action.rshape.headD 0 →
      columnsOf readTwo (width action) (.tuples ((p0 :: ps').map fun p => [p.1, p.2])) = .ok (p0 :: ps') := by
    intro h
    have hm := mapE_forall readTwo (fun l => ((l.getD 0 0 : ℚ), l.getD 1 0)) ((p0 :: ps').map fun p => [p.1, p.2]) (by
      intro x hx; obtain ⟨p, _, rfl⟩ := List.mem_map.1 hx; rfl)
    simp only [List.map_cons, columnsOf]
    rw [if_neg (by simpa [width] using h)]
    rw [List.map_map] at hm
    simp only [List.map_cons] at hm
    rw [hm]
    simp [Function.comp_def]
  constructor
  · intro h
    constructor
    · refine ⟨addNoise (fun p x => x * (p.2 - p.1) + p.1) (p0 :: ps') action ratio d.u, by simp only [addNoiseMode, if_true, addUniform, hcols h],
        rfl, ?_⟩
      intro pos p hp
      simp only [addNoise]
      rw [List.getD_eq_getElem?_getD, hp]
      rfl
    · refine ⟨addNoise (fun p x => x * p.2 + p.1) (p0 :: ps') action ratio d.z, by simp [addNoiseMode, addNormal, hcols h, -List.map_cons], rfl, ?_⟩
      intro pos p hp
      simp only [addNoise]
      rw [List.getD_eq_getElem?_getD, hp]
      rfl
  · intro h mode hmode
    have hc : columnsOf readTwo (width action) (.tuples ((p0 :: ps').map fun p => [p.1, p.2])) = .error .value := by
      simp only [List.map_cons, columnsOf]
      rw [if_pos (by simpa [width] using h)]
    simp only [List.mem_cons, List.not_mem_nil, or_false] at hmode
    rcases hmode with rfl | rfl <;> simp [addNoiseMode, addUniform, addNormal, hc, -List.map_cons]

/-- C140: other noise parameters are refused by the three modes that read tuples: nothing at all and `None` with an exception of their own kind, a
dictionary because it has no key `0`. -/
theorem C140_refused_partial (gen : Option (List Nat)) (action : Arr ℚ) (ratio : ℚ) (d : Draws) :
    ∀ mode ∈ ["uniform", "normal", "clipped_normal"],
      addNoiseMode gen mode action .dict ratio d = (gen, .error .key) ∧ addNoiseMode gen mode action .none ratio d = (gen, .error .type) ∧
      addNoiseMode gen mode action (.floats []) ratio d = (gen, .error .index) ∧
      addNoiseMode gen mode action (.tuples []) ratio d = (gen, .error .index) := by
  intro mode hmode
  simp only [List.mem_cons, List.not_mem_nil, or_false] at hmode
  rcases hmode with rfl | rfl | rfl <;> simp [addNoiseMode, addUniform, addNormal, addClipped, columnsOf]

/-- C140: in mode `"clipped_normal"` four numbers `(a, b, lo, hi)`, once or per column, add `(u (b - a) + a) ratio` (neither normal nor clipped, see
C63), and the shape of the action stays. -/
theorem C140_clipped_partial (gen : Option (List Nat)) (action : Arr ℚ) (ratio : ℚ) (d : Draws) :
    (∀ a b lo hi : ℚ, ∃ r, addNoiseMode gen "clipped_normal" action (.floats [a, b, lo, hi]) ratio d = (gen, .ok r) ∧ r.rshape = action.rshape ∧
      ∀ pos : List Nat, pos.headD 0 < action.rshape.headD 0 → r.get pos = action.get pos + (d.u pos * (b - a) + a) * ratio) ∧
    ∀ ps : List (ℚ × ℚ × ℚ × ℚ), ps ≠ [] → ps.length = action.rshape.headD 0 →
      ∃ r, addNoiseMode gen "clipped_normal" action (.tuples (ps.map fun p => [p.1, p.2.1, p.2.2.1, p.2.2.2])) ratio d = (gen, .ok r) ∧
        r.rshape = action.rshape ∧ ∀ (pos : List Nat) (p : ℚ × ℚ × ℚ × ℚ), ps[pos.headD 0]? = some p →
          r.get pos = action.get pos + (d.u pos * (p.2.1 - p.1) + p.1) * ratio := by
  constructor
  · intro a b lo hi
    refine ⟨addNoise (fun p x => x * (p.2 - p.1) + p.1) (List.replicate (width action) (a, b)) action ratio d.u,
      by simp [addNoiseMode, addClipped, columnsOf, readFour, readTwo, item], rfl, ?_⟩
    intro pos hpos
    simp only [addNoise, width]
    rw [replicate_getD _ _ _ hpos]
  · intro ps hne hlen
    refine ⟨addNoise (fun p x => x * (p.2 - p.1) + p.1) (ps.map fun p => (p.1, p.2.1)) action ratio d.u, ?_, rfl, ?_⟩
    · have hm := mapE_forall readFour (fun l => ((l.getD 0 0 : ℚ), l.getD 1 0)) (ps.map fun p => [p.1, p.2.1, p.2.2.1, p.2.2.2]) (by
        intro x hx; obtain ⟨p, _, rfl⟩ := List.mem_map.1 hx; rfl)
      rw [List.map_map] at hm
      have hc : columnsOf readFour (width action) (.tuples (ps.map fun p => [p.1, p.2.1, p.2.2.1, p.2.2.2])) =
          .ok (ps.map fun p => (p.1, p.2.1)) := by
        obtain ⟨p0, ps', rfl⟩ := List.exists_cons_of_ne_nil hne
        simp only [List.map_cons, columnsOf]
        rw [if_neg (by simpa [width] using hlen)]
        simp only [List.map_cons] at hm
        rw [hm]
        simp [Function.comp_def]
      simp [addNoiseMode, addClipped, hc]
    · intro pos p hp
      simp only [addNoise]
      rw [List.getD_eq_getElem?_getD, List.getElem?_map, hp]
      rfl

/-- C140: fewer numbers than the mode reads raise an `IndexError`: two for `"uniform"` and `"normal"`, four for `"clipped_normal"`. -/
theorem C140_short_partial (gen : Option (List Nat)) (mode : String) (action : Arr ℚ) (l : List ℚ) (ratio : ℚ) (d : Draws)
    (h : (mode ∈ ["uniform", "normal"] ∧ l.length < 2) ∨ (mode = "clipped_normal" ∧ l.length < 4)) :
    addNoiseMode gen mode action (.floats l) ratio d = (gen, .error .index) := by
  simp only [List.mem_cons, List.not_mem_nil, or_false] at h
  match l, h with
  | [], h => rcases h with ⟨rfl | rfl, _⟩ | ⟨rfl, _⟩ <;> rfl
  | [a], h => rcases h with ⟨rfl | rfl, _⟩ | ⟨rfl, _⟩ <;> rfl
  | [a, b], h =>
    rcases h with ⟨_, h⟩ | ⟨rfl, _⟩
    · simp at h
    · rfl
  | [a, b, c], h =>
    rcases h with ⟨_, h⟩ | ⟨rfl, _⟩
    · simp at h
    · rfl
  | _ :: _ :: _ :: _ :: _, h => simp only [List.length_cons] at h; omega

example : ((addNoiseMode none "uniform" ⟨[2, 1], fun pos => if pos = [0, 0] then 5 else 7⟩ (.tuples [[0, 2], [-1, 1]]) (1 / 2)
      ⟨fun _ => 1 / 4, fun _ => 0, fun _ => 0⟩).2.map fun a => (a.get [0, 0], a.get [1, 0])) = .ok (21 / 4, 27 / 4) := by decide +kernel

/-! ### C141: noisy actions have the shape of the action -/

/-- C141, full statement: every noisy action of a sequence of calls with Ornstein-Uhlenbeck noise has the shape of the action it was made from. -/
def C141_full : Prop :=
  ∀ (ratio : ℚ) (d : Draws) (actions : List (Arr ℚ)) (k : Nat) (a : Arr ℚ), actions[k]? = some a →
    ∃ r : Arr ℚ, (ouCalls none .dict ratio d actions).2[k]? = some (.ok r) ∧ r.rshape = a.rshape

theorem bshape_self : ∀ s : List Nat, bshape s s = some s
  | [] => rfl
  | d :: ds => by simp [bshape, bshape_self ds]

/-- The call in terms of the shape of the generator. -/
theorem addOu_some (s : List Nat) (a : Arr ℚ) (arg : PyArg) (ratio : ℚ) (d : Draws) :
    addNoiseMode (some s) "ou" a arg ratio d = (some s, Arr.op (fun a x => a + x * ratio) a ⟨s, d.ou⟩) := by
  simp [addNoiseMode, addOu]

/-- After an action for `b` states, the noisy action for one state has `b` rows: it is no action for that state. -/
theorem C141_violated_rows (b w : Nat) (first single : Arr ℚ) (ratio : ℚ) (d : Draws) (h1 : first.rshape = [w, b]) (h2 : single.rshape = [w, 1]) :
    ∃ r0 r : Arr ℚ, (ouCalls none .dict ratio d [first, single]).2 = [.ok r0, .ok r] ∧ r0.rshape = [w, b] ∧ r.rshape = [w, b] := by
  have e1 : addNoiseMode none "ou" first .dict ratio d = (some [w, b], Arr.op (fun a x => a + x * ratio) first ⟨[w, b], d.ou⟩) := by
    simp [addNoiseMode, addOu, h1]
  have e2 : bshape [w, 1] [w, b] = some [w, b] := by
    by_cases h : 1 = b <;> simp [bshape, h]
  refine ⟨⟨[w, b], fun idx => first.get (bindex [w, b] idx) + d.ou (bindex [w, b] idx) * ratio⟩,
    ⟨[w, b], fun idx => single.get (bindex [w, 1] idx) + d.ou (bindex [w, b] idx) * ratio⟩, ?_, rfl, rfl⟩
  · simp only [ouCalls, e1, addOu_some, Arr.op, h1, h2, bshape_self, e2]

/-- Agents whose actions differ in the number of columns, none of them 1: MADDPG raises an exception at the second agent. -/
theorem C141_violated_agents {O : Type} (w w' b : Nat) (x y : Arr ℚ) (ox oy : List O) (rest : List (Arr ℚ × List O)) (ratio : ℚ) (d : Nat → Draws)
    (hx : x.rshape = [w, b]) (hy : y.rshape = [w', b]) (h : w ≠ w') (h1 : w ≠ 1) (h1' : w' ≠ 1) :
    (maddpgActWithNoise "ou" .dict ratio d 0 none ((x, ox) :: (y, oy) :: rest)).2 = .error .runtime := by
  have e1 : addNoiseMode none "ou" x .dict ratio (d 0) = (some [w, b], .ok ⟨[w, b], fun idx => x.get (bindex [w, b] idx) +
      (d 0).ou (bindex [w, b] idx) * ratio⟩) := by
    simp [addNoiseMode, addOu, Arr.op, hx, bshape_self]
  have e2 : addNoiseMode (some [w, b]) "ou" y .dict ratio (d (0 + 1)) = (some [w, b], .error .runtime) := by
    rw [addOu_some]
    simp [Arr.op, hy, bshape, h1, h1', Ne.symm h]
  simp only [maddpgActWithNoise, e1, e2]

/-- C141 is violated. -/
theorem C141_violated : ¬ C141_full := by
  intro h
  let f : Arr ℚ := ⟨[1, 2], fun _ => 0⟩
  let g : Arr ℚ := ⟨[1, 1], fun _ => 0⟩
  let d : Draws := ⟨fun _ => 0, fun _ => 0, fun _ => 0⟩
  obtain ⟨r0, r, hr, _, hs⟩ := C141_violated_rows 2 1 f g 1 d rfl rfl
  obtain ⟨r', hr', hs'⟩ := h 1 d [f, g] 1 g rfl
  rw [hr] at hr'
  simp only [List.getElem?_cons_succ, List.getElem?_cons_zero, Option.some.injEq, Except.ok.injEq] at hr'
  rw [← hr', hs] at hs'
  revert hs'
  decide

theorem bindex_self : ∀ (s pos : List Nat), List.Forall₂ (fun i d => i < d) pos s → bindex s pos = pos
  | [], _, h => by cases h; rfl
  | d :: ds, _, h => by
    cases h with
    | cons hi ht =>
      rename_i i is
      simp only [bindex, bindex_self ds is ht]
      split
      · have : i = 0 := by omega
        simp [this]
      · rfl

/-- C141, what holds: if all actions have one shape (and the first call gets the arguments of a generator), every noisy action has that shape, and
each of its entries is the entry of the action plus the value of the generator times the ratio. -/
theorem C141_one_shape_partial (s : List Nat) (ratio : ℚ) (d : Draws) (actions : List (Arr ℚ)) (hs : ∀ a ∈ actions, a.rshape = s) (gen : Option (List Nat))
    (hg : gen = none ∨ gen = some s) (k : Nat) (a : Arr ℚ) (ha : actions[k]? = some a) :
    ∃ r : Arr ℚ, (ouCalls gen .dict ratio d actions).2[k]? = some (.ok r) ∧ r.rshape = s ∧
      ∀ pos : List Nat, List.Forall₂ (fun i n => i < n) pos s → r.get pos = a.get pos + d.ou pos * ratio := by
  have key : ∀ a : Arr ℚ, a.rshape = s → ∃ r : Arr ℚ, addNoiseMode gen "ou" a .dict ratio d = (some s, .ok r) ∧ r.rshape = s ∧
      ∀ pos : List Nat, List.Forall₂ (fun i n => i < n) pos s → r.get pos = a.get pos + d.ou pos * ratio := by
    intro a ha
    refine ⟨⟨s, fun idx => a.get (bindex s idx) + d.ou (bindex s idx) * ratio⟩, ?_, rfl, ?_⟩
    · rcases hg with rfl | rfl <;> simp [addNoiseMode, addOu, Arr.op, ha, bshape_self]
    · intro pos hpos
      simp only [bindex_self s pos hpos]
  induction actions generalizing gen k with
  | nil => cases ha
  | cons x xs ih =>
    obtain ⟨r, hr, h2, h3⟩ := key x (hs x (by simp))
    cases k with
    | zero =>
      simp only [List.getElem?_cons_zero, Option.some.injEq] at ha
      subst ha
      exact ⟨r, by simp [ouCalls, hr], h2, h3⟩
    | succ k =>
      simp only [List.getElem?_cons_succ] at ha
      obtain ⟨r', hr', h'⟩ := ih (fun a ha => hs a (by simp [ha])) (some s) (.inr rfl) k ha (by
        intro a ha
        refine ⟨⟨s, fun idx => a.get (bindex s idx) + d.ou (bindex s idx) * ratio⟩, by simp [addOu_some, Arr.op, ha, bshape_self], rfl, ?_⟩
        intro pos hpos
        simp only [bindex_self s pos hpos])
      exact ⟨r', by simpa [ouCalls, hr] using hr', h'⟩

example : List.Forall₂ (fun i n => i < n) [1, 0] [2, 1] := by simp

/-- C141: the other modes give the shape of the action whenever they give anything. -/
theorem C141_other_modes_partial (gen : Option (List Nat)) (mode : String) (action : Arr ℚ) (arg : PyArg) (ratio : ℚ) (d : Draws) (r : Arr ℚ)
    (hm : mode ≠ "ou") (h : (addNoiseMode gen mode action arg ratio d).2 = .ok r) : r.rshape = action.rshape := by
  unfold addNoiseMode at h
  rw [if_neg hm] at h
  split at h
  · unfold addUniform at h
    dsimp only at h
    split at h
    · cases h
    · cases h; rfl
  split at h
  · unfold addNormal at h
    dsimp only at h
    split at h
    · cases h
    · cases h; rfl
  split at h
  · unfold addClipped at h
    dsimp only at h
    split at h
    · cases h
    · cases h; rfl
  · cases h

/-- C141: MADDPG in the other modes: the result for agent `k` is the noisy action made from the action of agent `k` with the draws for it, together
with the other results of this agent, of the same shape; the first exception is raised. -/
theorem C141_maddpg_partial {O : Type} (mode : String) (hm : mode ≠ "ou") (arg : PyArg) (ratio : ℚ) (d : Nat → Draws) (gen : Option (List Nat)) :
    ∀ (acts : List (Arr ℚ × List O)) (k0 : Nat),
      (∀ rs, (maddpgActWithNoise mode arg ratio d k0 gen acts).2 = .ok rs → rs.length = acts.length ∧
        ∀ (k : Nat) (a : Arr ℚ) (o : List O), acts[k]? = some (a, o) → ∃ r : Arr ℚ, rs[k]? = some (r, o) ∧ r.rshape = a.rshape ∧
          addNoiseMode gen mode a arg ratio (d (k0 + k)) = (gen, .ok r)) ∧
      (∀ e, (maddpgActWithNoise mode arg ratio d k0 gen acts).2 = .error e → ∃ (k : Nat) (a : Arr ℚ) (o : List O), acts[k]? = some (a, o) ∧
        addNoiseMode gen mode a arg ratio (d (k0 + k)) = (gen, .error e))
  | [], k0 => by
    refine ⟨fun rs h => ?_, fun e h => by simp [maddpgActWithNoise] at h⟩
    simp only [maddpgActWithNoise, Except.ok.injEq] at h
    subst h
    exact ⟨rfl, fun k a o h => by simp at h⟩
  | (x, ox) :: rest, k0 => by
    have hgen : ∀ a d, (addNoiseMode gen mode a arg ratio d).1 = gen := by
      intro a d
      unfold addNoiseMode
      rw [if_neg hm]
      split
      · rfl
      split
      · rfl
      split <;> rfl
    have ih := C141_maddpg_partial mode hm arg ratio d gen rest (k0 + 1)
    simp only [maddpgActWithNoise]
    cases hx : addNoiseMode gen mode x arg ratio (d k0) with
    | mk g r =>
      have hg := hgen x (d k0)
      rw [hx] at hg
      subst hg
      cases r with
      | error e =>
        refine ⟨fun rs h => by simp at h, fun e' h => ?_⟩
        simp only [Except.error.injEq] at h
        exact ⟨0, x, ox, rfl, by rw [Nat.add_zero, hx, h]⟩
      | ok r =>
        dsimp only
        cases hrest : maddpgActWithNoise mode arg ratio d (k0 + 1) g rest with
        | mk g' rr =>
          rw [hrest] at ih
          cases rr with
          | error e =>
            refine ⟨fun rs h => by simp at h, fun e' h => ?_⟩
            obtain ⟨k, a, o, h1, h2⟩ := ih.2 e' (by simpa using h)
            exact ⟨k + 1, a, o, h1, by rw [show k0 + (k + 1) = k0 + 1 + k by omega]; exact h2⟩
          | ok rs' =>
            refine ⟨fun rs h => ?_, fun e' h => by simp at h⟩
            simp only [Except.ok.injEq] at h
            subst h
            obtain ⟨h1, h2⟩ := ih.1 rs' rfl
            refine ⟨by simp [h1], fun k a o hk => ?_⟩
            cases k with
            | zero =>
              simp only [List.getElem?_cons_zero, Option.some.injEq, Prod.mk.injEq] at hk
              obtain ⟨rfl, rfl⟩ := hk
              exact ⟨r, rfl, C141_other_modes_partial g mode x arg ratio (d k0) r hm (by rw [hx]), hx⟩
            | succ k =>
              obtain ⟨r', e1, e2, e3⟩ := h2 k a o hk
              exact ⟨r', e1, e2, by rw [show k0 + (k + 1) = k0 + 1 + k by omega]; exact e3⟩

example : ((maddpgActWithNoise "uniform" (.floats [0, 1]) 1 (fun k => ⟨fun _ => k, fun _ => 0, fun _ => 0⟩) 0 none
    [(⟨[1], fun _ => 5⟩, ["a"]), (⟨[1], fun _ => 7⟩, ["b"])]).2.map fun l => l.map fun r => (r.1.get [0], r.2)) = .ok [(5, ["a"]), (8, ["b"])] := by
  decide +kernel

/-! ### C142: acting with a distributed algorithm -/

/-- The agent with the newest model: the one on the server, if the agent synchronises, acts with its own network and is not wrapped. -/
def newest {M : Type} (server : Option M) (a : Agent M) (useTarget : Bool) : Agent M :=
  { a with online := if a.syncing = true ∧ useTarget = false ∧ a.parallel = false then server.getD a.online else a.online }

/-- The arguments agree as far as the method of the local algorithm documents them. -/
def Agree : Method → Args → Args → Prop
  | .dqnActDiscrete, x, y => x.useTarget = y.useTarget
  | .dqnActDiscreteNoise, x, y => x.useTarget = y.useTarget ∧ x.decayEpsilon = y.decayEpsilon
  | .ddpgAct, x, y => x.useTarget = y.useTarget
  | .ddpgActNoise, x, y => x.useTarget = y.useTarget ∧ x.noiseParam = y.noiseParam ∧ x.ratio = y.ratio ∧ x.mode = y.mode
  | .ddpgActDiscrete, x, y => x.useTarget = y.useTarget
  | .ddpgActDiscreteNoise, x, y => x.useTarget = y.useTarget ∧ x.chooseMaxProb = y.chooseMaxProb

/-- C142, full statement: an acting method of an Ape-X class does what the method of the local class does with the same arguments and the newest
model. `sup` is the local method, which uses its documented arguments only. -/
def C142_full : Prop :=
  ∀ (R : Type) (m : Method) (sup : Agent Nat → Args → R) (server : Option Nat) (a : Agent Nat) (x : Args),
    (∀ a x y, Agree m x y → sup a x = sup a y) → apexAct sup m server a x = (newest server a x.useTarget, sup (newest server a x.useTarget) x)

theorem apex_pull {M R : Type} (sup : Agent M → Args → R) (m : Method) (server : Option M) (a : Agent M) (x : Args) :
    apexAct sup m server a x = (newest server a x.useTarget, sup (newest server a x.useTarget) (forwarded m x)) := by
  have e : (if a.syncing && !x.useTarget && !a.parallel then pull server a else a) = newest server a x.useTarget := by
    obtain ⟨o, t, s, p⟩ := a
    cases s <;> cases p <;> cases hu : x.useTarget <;> cases server <;> simp [newest, pull]
  simp only [apexAct]
  rw [e]

/-- C142, what holds: every method but the noisy discrete one of DDPG. -/
theorem C142_same_partial {M R : Type} (m : Method) (hm : m ≠ .ddpgActDiscreteNoise) (sup : Agent M → Args → R) (server : Option M) (a : Agent M) (x : Args)
    (hsup : ∀ a x y, Agree m x y → sup a x = sup a y) :
    apexAct sup m server a x = (newest server a x.useTarget, sup (newest server a x.useTarget) x) := by
  rw [apex_pull]
  congr 1
  apply hsup
  cases m <;> simp_all [Agree, forwarded]

/-- C142: the noisy discrete method of DDPG hands on the default probability instead of the given one, so it does the right thing if the default is
given. -/
theorem C142_default_partial {M R : Type} (sup : Agent M → Args → R) (server : Option M) (a : Agent M) (x : Args) (hx : x.chooseMaxProb = 95 / 100)
    (hsup : ∀ a x y, Agree .ddpgActDiscreteNoise x y → sup a x = sup a y) :
    apexAct sup .ddpgActDiscreteNoise server a x = (newest server a x.useTarget, sup (newest server a x.useTarget) x) := by
  rw [apex_pull]
  congr 1
  apply hsup
  simp [Agree, forwarded, hx, Args.default]

/-- C142: A3C and IMPALA act with the newest model exactly if they synchronise (and the network of IMPALA is not wrapped). -/
theorem C142_others_partial {M R : Type} (sup : M → R) (server : Option M) (a : Agent M) :
    a3cAct sup server a = (let b := newest server { a with parallel := false } false; ({ b with parallel := a.parallel }, sup b.online)) ∧
    impalaAct sup server a = (newest server a false, sup (newest server a false).online) := by
  obtain ⟨o, t, s, p⟩ := a
  cases s <;> cases p <;> cases server <;> exact ⟨rfl, rfl⟩

/-- On an extreme row, `DDPGApex.act_discrete_with_noise` draws the large entry with probability 0.95, whatever probability `p` was asked for; the
local method draws it with probability `p`. -/
theorem C142_violated_probability (p : ℚ) (h0 : 0 < p) (h1 : p < 1) (a : Agent Nat) (draw : Nat) (x : Args) (hx : x = { Args.default with chooseMaxProb := p }) :
    (∃ row, (apexAct (ddpgDiscreteNoise (fun _ => [[1, 0]]) [[draw]]) .ddpgActDiscreteNoise none a x).2 = .ok ([draw], [row]) ∧
      row[0]? = some (95 / 100)) ∧
    ∃ row, ddpgDiscreteNoise (fun _ => [[1, 0]]) [[draw]] a x = .ok ([draw], [row]) ∧ row[0]? = some ((p : ℚ) : ℝ) := by
  have hprob : Algo.isProbs [[(1 : ℝ), 0]] = true := by
    simp only [Algo.isProbs, decide_eq_true_eq]
    intro row hrow
    simp only [List.mem_singleton] at hrow
    subst hrow
    refine ⟨by norm_num, ?_⟩
    intro y hy
    simp only [List.mem_cons, List.not_mem_nil, or_false] at hy
    rcases hy with rfl | rfl <;> norm_num
  have hrow : ((List.range 2).map fun j => if j = 0 then (1 : ℝ) else 0) = [1, 0] := by
    simp [List.range_succ]
  constructor
  · refine ⟨Algo.noisyRow ((forwarded .ddpgActDiscreteNoise x).chooseMaxProb : ℝ) 2 [1, 0], ?_, ?_⟩
    · rw [apex_pull]
      exact ((Algo.C98_single_partial _ [1, 0] draw).1 hprob).1
    · have := Algo.C98_extreme_partial ((forwarded .ddpgActDiscreteNoise x).chooseMaxProb : ℝ) 2 0 (by norm_num) (by norm_num)
        (by norm_num [forwarded, Args.default]) (by norm_num [forwarded, Args.default]) 0 (by norm_num)
      rw [hrow] at this
      rw [this]
      norm_num [forwarded, Args.default]
  · refine ⟨Algo.noisyRow (x.chooseMaxProb : ℝ) 2 [1, 0], ((Algo.C98_single_partial _ [1, 0] draw).1 hprob).1, ?_⟩
    have := Algo.C98_extreme_partial (x.chooseMaxProb : ℝ) 2 0 (by norm_num) (by norm_num)
      (by rw [hx]; exact_mod_cast h0) (by rw [hx]; exact_mod_cast h1) 0 (by norm_num)
    rw [hrow] at this
    rw [this, hx]
    simp

/-- C142: the discrete noisy action of a local agent comes from its online network unless the target is asked for. -/
theorem C142_network_partial {M : Type} (net : M → List (List ℝ)) (draws : List (List Nat)) (a : Agent M) (x : Args) :
    ddpgDiscreteNoise net draws a { x with useTarget := false } = Algo.actDiscreteNoise (x.chooseMaxProb : ℝ) (net a.online) draws ∧
    ddpgDiscreteNoise net draws a { x with useTarget := true } = Algo.actDiscreteNoise (x.chooseMaxProb : ℝ) (net a.target) draws :=
  ⟨rfl, rfl⟩

/-- C142 is violated. -/
theorem C142_violated : ¬ C142_full := by
  intro h
  let a : Agent Nat := ⟨0, 0, false, false⟩
  let x : Args := { Args.default with chooseMaxProb := 1 / 2 }
  have hv := C142_violated_probability (1 / 2) (by norm_num) (by norm_num) a 0 x rfl
  have := h _ .ddpgActDiscreteNoise (ddpgDiscreteNoise (fun _ => [[1, 0]]) [[0]]) none a x (by
    intro a x y hxy
    simp only [Agree] at hxy
    unfold ddpgDiscreteNoise
    rw [hxy.1, hxy.2])
  obtain ⟨row, hr, hr0⟩ := hv.1
  obtain ⟨row', hr', hr0'⟩ := hv.2
  have e : newest none a x.useTarget = a := rfl
  rw [this, e] at hr
  rw [hr'] at hr
  simp only [Except.ok.injEq, Prod.mk.injEq, List.cons.injEq, and_true, true_and] at hr
  rw [← hr, hr0'] at hr0
  norm_num at hr0

example : apexAct (fun a (x : Args) => (a.online, x.ratio)) .ddpgActNoise (some 7) ⟨1, 2, true, false⟩ { Args.default with ratio := 3 } =
    (⟨7, 2, true, false⟩, (7, 3)) := by rfl

/-! ### C143: greedy actions are the best ones -/

/-- The expected value of a distribution over `n` equidistant values from `lo` to `hi`. -/
def expected (lo hi : ℚ) (dist : List ℚ) : ℚ :=
  ((List.range dist.length).map fun j : Nat => (lo + (hi - lo) * (j : ℚ) / ((dist.length : ℚ) - 1)) * dist.getD j 0).sum

theorem qValue_expected (lo hi : ℚ) (dist : List ℚ) : qValue lo hi dist = expected lo hi dist := by
  unfold qValue expected
  congr 1
  apply List.map_congr_left
  intro j hj
  have hj := List.mem_range.1 hj
  split
  · rename_i h
    have : j = 0 := by omega
    subst this
    simp
  · simp only [Project.Support.z, Project.Support.delta]
    ring

/-- C143: RAINBOW acts with the first action whose return distribution has the largest expected value; it fails only if there is no action. -/
theorem C143_rainbow (lo hi : ℚ) (dists : List (List ℚ)) (hne : dists ≠ []) :
    ∃ i v, rainbowAct lo hi dists = .ok i ∧ FirstMax (dists.map (expected lo hi)) i v := by
  have e : dists.map (qValue lo hi) = dists.map (expected lo hi) := List.map_congr_left fun d _ => qValue_expected lo hi d
  obtain ⟨p, hp⟩ := Algo.rowMax_total (row := dists.map (expected lo hi)) (by simpa using hne)
  refine ⟨p.2, p.1, ?_, Algo.rowMax_spec hp⟩
  simp only [rainbowAct, e, hp]

theorem C143_rainbow_bounds_aux (l : List Nat) (w : Nat → ℚ) (z : Nat → ℚ) (lo hi : ℚ) (hw : ∀ j ∈ l, 0 ≤ w j) (hz : ∀ j ∈ l, lo ≤ z j ∧ z j ≤ hi) :
    lo * (l.map w).sum ≤ (l.map fun j => z j * w j).sum ∧ (l.map fun j => z j * w j).sum ≤ hi * (l.map w).sum := by
  induction l with
  | nil => simp
  | cons a l ih =>
    have ih := ih (fun j hj => hw j (by simp [hj])) (fun j hj => hz j (by simp [hj]))
    simp only [List.map_cons, List.sum_cons, mul_add]
    have h1 := mul_le_mul_of_nonneg_right (hz a (by simp)).1 (hw a (by simp))
    have h2 := mul_le_mul_of_nonneg_right (hz a (by simp)).2 (hw a (by simp))
    exact ⟨add_le_add h1 ih.1, add_le_add h2 ih.2⟩

/-- C143: the value RAINBOW attaches to an action lies within the support if the network gives a distribution. -/
theorem C143_rainbow_bounds (lo hi : ℚ) (hle : lo ≤ hi) (dist : List ℚ) (hd : ∀ x ∈ dist, 0 ≤ x) (hs : dist.sum = 1) :
    lo ≤ qValue lo hi dist ∧ qValue lo hi dist ≤ hi := by
  rw [qValue_expected]
  have hsum : ((List.range dist.length).map fun j => dist.getD j 0).sum = 1 := by
    rw [← hs]
    congr 1
    apply List.ext_getElem (by simp)
    intro n h1 h2
    simp [h2]
  have := C143_rainbow_bounds_aux (List.range dist.length) (fun j => dist.getD j 0) (fun j => lo + (hi - lo) * (j : ℚ) / ((dist.length : ℚ) - 1)) lo hi (by
    intro j hj
    have hj := List.mem_range.1 hj
    have e : dist.getD j 0 = dist[j] := by simp [List.getD_eq_getElem?_getD, hj]
    rw [e]
    exact hd _ (List.getElem_mem hj)) (by
    intro j hj
    have hj := List.mem_range.1 hj
    by_cases h1 : dist.length = 1
    · have : j = 0 := by omega
      subst this
      simp [hle]
    · have hpos : (0 : ℚ) < (dist.length : ℚ) - 1 := by
        have : (2 : ℚ) ≤ (dist.length : ℚ) := by exact_mod_cast (by omega : 2 ≤ dist.length)
        linarith
      have hj' : (j : ℚ) ≤ (dist.length : ℚ) - 1 := by
        have : (j : ℚ) + 1 ≤ (dist.length : ℚ) := by exact_mod_cast hj
        linarith
      have hq0 : 0 ≤ (j : ℚ) / ((dist.length : ℚ) - 1) := div_nonneg (by positivity) hpos.le
      have hq1 : (j : ℚ) / ((dist.length : ℚ) - 1) ≤ 1 := (div_le_one hpos).2 hj'
      rw [mul_div_assoc]
      have hd : 0 ≤ hi - lo := by linarith
      constructor
      · have := mul_nonneg hd hq0; linarith
      · have := mul_le_mul_of_nonneg_left hq1 hd; linarith)
  rw [hsum, mul_one, mul_one] at this
  exact this

/-- C143: exploration of RAINBOW: the random actions if and only if the draw is below `epsilon`, otherwise the best action of every row. -/
theorem C143_rainbow_noise (lo hi : ℚ) (e : Algo.Eps) (rows : List (List (List ℚ))) (draw : ℚ) (random : List Nat) (d : Bool) (acts : List Nat)
    (h : (rainbowActNoise lo hi e rows draw random d).2 = .ok acts) :
    (draw < e.epsilon → acts = random) ∧
    (e.epsilon ≤ draw → acts.length = rows.length ∧
      ∀ (i : Nat) (row : List (List ℚ)), rows[i]? = some row → ∃ a v, acts[i]? = some a ∧ FirstMax (row.map (expected lo hi)) a v) := by
  have := Algo.C92_choice e _ draw random d acts h
  refine ⟨this.1, fun hd => ⟨by simpa using (this.2 hd).1, ?_⟩⟩
  intro i row hi'
  obtain ⟨a, v, h1, h2⟩ := (this.2 hd).2 i (row.map (qValue lo hi)) (by simp [hi'])
  refine ⟨a, v, h1, ?_⟩
  rw [List.map_congr_left fun d _ => qValue_expected lo hi d] at h2
  exact h2

/-- C143: `DDPG.act_discrete` returns for every row of a matrix of probabilities the first most probable action, and the matrix; anything else is
refused with a `ValueError`. -/
theorem C143_ddpg (rows : List (List ℚ)) :
    ((∀ row ∈ rows, |row.sum - 1| < 1 / 100000 ∧ ∀ x ∈ row, 0 ≤ x) → ∃ acts, ddpgActDiscrete rows = .ok (acts, rows) ∧ acts.length = rows.length ∧
      ∀ (i : Nat) (row : List ℚ), rows[i]? = some row → ∃ a v, acts[i]? = some a ∧ FirstMax row a v) ∧
    ((¬ ∀ row ∈ rows, |row.sum - 1| < 1 / 100000 ∧ ∀ x ∈ row, 0 ≤ x) → ddpgActDiscrete rows = .error .value) := by
  have hp : isProbs rows = true ↔ ∀ row ∈ rows, |row.sum - 1| < 1 / 100000 ∧ ∀ x ∈ row, 0 ≤ x := by
    simp [isProbs]
  constructor
  · intro h
    have hne : ∀ row ∈ rows, row ≠ [] := by
      rintro row hr rfl
      have := (h [] hr).1
      norm_num at this
    obtain ⟨best, hb⟩ := Algo.mapE_total (f := Algo.rowMax) (l := rows) fun row hrow => Algo.rowMax_total (hne row hrow)
    obtain ⟨l, f⟩ := Algo.mapE_ok hb
    refine ⟨best.map (·.2), by simp [ddpgActDiscrete, hp.2 h, hb], by simp [l], ?_⟩
    intro i row hi
    have hlt : i < best.length := by
      rw [l]
      by_contra hc
      rw [List.getElem?_eq_none (Nat.le_of_not_lt hc)] at hi
      cases hi
    have hbi : best[i]? = some best[i] := List.getElem?_eq_getElem hlt
    exact ⟨best[i].2, best[i].1, by simp [hbi], Algo.rowMax_spec (f i row _ hi hbi)⟩
  · intro h
    have : isProbs rows = false := by
      cases hq : isProbs rows with
      | false => rfl
      | true => exact absurd (hp.1 hq) h
    simp [ddpgActDiscrete, this]

example : rainbowAct 0 10 [[1, 0, 0], [0, 1 / 2, 1 / 2], [0, 1 / 2, 1 / 2]] = .ok 1 ∧ qValue 0 10 [0, 1 / 2, 1 / 2] = 15 / 2 ∧
    ddpgActDiscrete [[1 / 4, 3 / 4]] = .ok ([1], [[1 / 4, 3 / 4]]) ∧ ddpgActDiscrete [[1, 1]] = .error .value := by decide +kernel

end Machin.Act
