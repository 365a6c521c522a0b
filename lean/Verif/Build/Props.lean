import Verif.Build.LemmasEpisode

/-! # C238: building transitions and the data of the caller; C239: storing tensors of a computation graph -/

namespace Machin.Build

open Spec Replay

/-! ### C238 -/

/-- Storing leaves the list and the objects of the caller as they were. -/
def C238_full : Prop :=
  ∀ (req : List String) (h : Heap) (b : Buffer TVal) (ep : List Item), Closed h → (∀ x ∈ ep, BoundI h x) →
    (store req h b ep).episode = ep ∧ ∀ a < h.size, (store req h b ep).heap.obj a = h.obj a

/-- The objects of an actor-critic user: a state (0), an action that is the output of the actor (1), the dictionaries of them (2, 3). -/
def exHeap : Heap :=
  ((((⟨fun _ => .other 0, 0⟩ : Heap).alloc (.tensor 10 (some 1) false .plain)).alloc (.tensor 11 (some 1) false .node)).alloc
    (.dict [("state", 0)])).alloc (.dict [("action", 1)])

/-- The transition as a dictionary. -/
def exDict : PyDict String Val :=
  [("state", .ref 2), ("action", .ref 3), ("next_state", .ref 2), ("reward", .num 1), ("terminal", .bool false)]

theorem exHeap_closed : Closed exHeap := by
  intro a ha items he x hx
  have : a = 0 ∨ a = 1 ∨ a = 2 ∨ a = 3 := by
    have : a < 4 := ha
    omega
  rcases this with rfl | rfl | rfl | rfl <;> simp [exHeap, Heap.alloc] at he <;> subst he <;> simp at hx <;> subst hx <;> decide

theorem exDict_bound : BoundD exHeap exDict := by
  intro x hx
  simp only [exDict, List.mem_cons, List.not_mem_nil, or_false] at hx
  rcases hx with rfl | rfl | rfl | rfl | rfl <;> simp [Bound] <;> decide

theorem C238_violated : ¬ C238_full := by
  intro hf
  have h1 := (hf [] exHeap (Buffer.new _ 3) [.dict exDict] exHeap_closed (by
    intro x hx
    rw [List.mem_singleton.1 hx]
    exact exDict_bound)).1
  revert h1
  decide +kernel

/-- The dictionary of the caller holds another tensor afterwards: the action was the output of the actor, now a backward pass from it does not
reach the actor any more. The state, which was in no graph, has been exchanged as well. -/
theorem C238_violated_graph :
    exHeap.read (.ref 3) = .dict [("action", .tensor 11 (some 1) false .node)] ∧
      (store [] exHeap (Buffer.new _ 3) [.dict exDict]).heap.read (.ref 3) = .dict [("action", .tensor 11 (some 1) false .plain)] ∧
      exHeap.obj 2 = .dict [("state", 0)] ∧ (store [] exHeap (Buffer.new _ 3) [.dict exDict]).heap.obj 2 = .dict [("state", 6)] := by
  decide +kernel

/-- A dictionary that is refused because a required attribute is missing has lost its graph already, although the list still holds it. -/
theorem C238_violated_refused :
    (store ["log_prob"] exHeap (Buffer.new _ 3) [.dict exDict]).result = .error .value ∧
      (store ["log_prob"] exHeap (Buffer.new _ 3) [.dict exDict]).episode = [.dict exDict] ∧
      (store ["log_prob"] exHeap (Buffer.new _ 3) [.dict exDict]).heap.read (.ref 3) =
        .dict [("action", .tensor 11 (some 1) false .plain)] := by
  decide +kernel

/-- `Transition(**d)` that raises changes no object. -/
theorem C238_raise_partial {h h' : Heap} {d : PyDict String Val} {e : Err} (hn : h.new d = (h', .error e)) : h' = h := new_error hn

example : (exHeap.new (exDict.set "terminal" (.num 0))).2 = .error .assertion := by decide +kernel

/-- `Transition(**d)` that succeeds changes exactly the dictionaries given as major attributes: every entry is exchanged for a new tensor on
the same storage outside of the graph. The object has these dictionaries, reward and terminal as given but outside of the graph, and the
further entries as they are. -/
theorem C238_new_partial {h h' : Heap} {d : PyDict String Val} {t : TObj} (hc : Closed h) (hb : BoundD h d)
    (hn : h.new d = (h', .ok t)) :
    Detaches (majorRefs d) h h' ∧
      t.major.map (fun x => (x.1, some x.2)) = ["state", "action", "next_state"].map (fun k => (k, d.get? k)) ∧
      (∀ x ∈ t.major, h'.read x.2 = plain (h.read x.2)) ∧
      t.sub.map (fun x => (x.1, some (h'.read x.2))) =
        ["reward", "terminal"].map (fun k => (k, (d.get? k).map fun v => plain (h.read v))) ∧
      (∀ x, x ∈ t.custom ↔ x ∈ d ∧ x.1 ∉ ["state", "action", "next_state", "reward", "terminal"]) := by
  obtain ⟨s, a, n, r, te, e1, e2, e3, e4, e5, m1, m2, hg, hd, hs⟩ := new_ok hc hb hn
  refine ⟨hd, by simp [m1, e1, e2, e3], ?_, ?_, ?_⟩
  · intro x hx
    obtain ⟨c, items, ex, hlt, ho, _⟩ := hg x hx
    have hM : majorRefs d c := by
      rw [m1] at hx
      simp only [List.mem_cons, List.not_mem_nil, or_false] at hx
      rcases hx with rfl | rfl | rfl <;> simp only at ex <;> subst ex
      · exact .inl e1
      · exact .inr (.inl e2)
      · exact .inr (.inr e3)
    rw [ex]
    exact read_major hd hlt hM
  · generalize t.sub = ss at hs ⊢
    cases hs with
    | cons p q =>
      cases q with
      | cons p' q' =>
        cases q'
        have r1 := read_sub p
        have r2 := read_sub p'
        have k1 := p.1
        have k2 := p'.1
        simp only [List.map_cons, List.map_nil, e4, e5, Option.map_some, r1, r2, k1, k2]
  · intro x
    rw [m2, sorted_mem]
    simp [names]

example : ((exHeap.new exDict).2.map fun t => (exHeap.new exDict).1.readT t) =
    .ok ⟨[("state", .dict [("state", .tensor 10 (some 1) false .plain)]), ("action", .dict [("action", .tensor 11 (some 1) false .plain)]),
      ("next_state", .dict [("state", .tensor 10 (some 1) false .plain)])], [("reward", .num 1), ("terminal", .bool false)], []⟩ := by
  decide +kernel

/-- An episode: there is a number `n` of items at the front that have been replaced by transition objects in the list of the caller; all are
if nothing is raised. Exactly the dictionaries given as major attributes by these items, and at most those of the item after them, have had
their entries exchanged for new tensors outside of the graph on the same storages; all other objects are as before. -/
theorem C238_episode_partial (req : List String) (h : Heap) (ep : List Item) (hc : Closed h) (hb : ∀ x ∈ ep, BoundI h x) :
    let r := convert req h ep
    ∃ n, n ≤ ep.length ∧ r.2.1.length = ep.length ∧ r.2.1.drop n = ep.drop n ∧ (∀ x ∈ r.2.1.take n, ∃ t, x = .trans t) ∧
      (∃ M, Detaches M h r.1 ∧ (∀ a, M a → ∃ d, .dict d ∈ ep.take (n + 1) ∧ majorRefs d a) ∧
        ∀ d a, .dict d ∈ ep.take n → majorRefs d a → M a) ∧
      ((∃ e, r.2.2 = .error e) ∧ n < ep.length ∨ ∃ ts, r.2.2 = .ok ts ∧ n = ep.length ∧ r.2.1 = ts.map .trans) :=
  convert_spec req ep h hc hb

/-- Numbers, contents and keys stay: whatever value the caller holds reads as before, but for the graph. -/
theorem C238_values_partial (req : List String) (h : Heap) (ep : List Item) (hc : Closed h) (hb : ∀ x ∈ ep, BoundI h x) (v : Val)
    (hv : Bound h v) : (convert req h ep).1.read v = h.read v ∨ (convert req h ep).1.read v = plain (h.read v) := by
  obtain ⟨n, _, _, _, _, ⟨M, hd, _⟩, _⟩ := convert_spec req ep h hc hb
  exact read_or hc hd v hv

/-- Storing the list again, now of transition objects, changes neither list nor objects. -/
theorem C238_again_partial (req : List String) (h : Heap) (ts : List TObj) (hk : ∀ t ∈ ts, t.hasKeys req = true) :
    convert req h (ts.map .trans) = (h, ts.map .trans, .ok ts) := by
  induction ts with
  | nil => rfl
  | cons t ts ih =>
    have h1 : ¬ ¬ t.hasKeys req = true := by simp [hk t List.mem_cons_self]
    rw [List.map_cons, convert]
    simp only [Heap.toTrans]
    rw [if_neg h1, ih fun t' ht' => hk t' (List.mem_cons_of_mem _ ht')]

example : ∃ ts, (convert [] exHeap [.dict exDict, .dict exDict]).2.2 = .ok ts ∧ ts.length = 2 :=
  ⟨_, rfl, by decide +kernel⟩

/-- Exactly which dictionaries make a transition. -/
theorem C238_accepts_partial (h : Heap) (d : PyDict String Val) : (∃ t, (h.new d).2 = .ok t) ↔ Valid h d := newAccepts h d

example : Valid exHeap exDict := (C238_accepts_partial exHeap exDict).1 ⟨_, rfl⟩

/-- Exactly which exception the other dictionaries raise. -/
theorem C238_fails_partial (h : Heap) (d : PyDict String Val) (e : Err) : (h.new d).2 = .error e ↔ Fails h d e := newFails h d e

example : (exHeap.new [("state", .num 1), ("action", .num 1), ("next_state", .num 1), ("reward", .num 1), ("terminal", .bool true)]).2 = .error .attribute ∧
    (exHeap.new [("state", .num 1), ("action", .num 1), ("next_state", .num 1), ("reward", .num 1), ("terminal", .num 0)]).2 = .error .assertion ∧
    (exHeap.new [("state", .num 1)]).2 = .error .type := by decide +kernel

/-- Which episodes are converted: those of accepted items. -/
theorem C238_converted_partial (req : List String) (h : Heap) (ep : List Item) (hc : Closed h) (hb : ∀ x ∈ ep, BoundI h x) :
    (∃ ts, (convert req h ep).2.2 = .ok ts) ↔ ∀ x ∈ ep, Accepted req h x := by
  obtain ⟨h1, h2⟩ := convert_exact req ep h hc hb
  constructor
  · rintro ⟨ts, hts⟩
    exact h2 ts hts
  · intro ha
    cases hr : (convert req h ep).2.2 with
    | ok ts => exact ⟨ts, rfl⟩
    | error e =>
      obtain ⟨pre, x, post, rfl, _, hx⟩ := h1 e hr
      exact absurd (ha x (by simp)) (refused_not_accepted hx)

/-- Otherwise the first item that is not accepted, as the objects were before the call, gives the exception. -/
theorem C238_first_partial (req : List String) (h : Heap) (ep : List Item) (e : Err) (hc : Closed h) (hb : ∀ x ∈ ep, BoundI h x) :
    (convert req h ep).2.2 = .error e ↔
      ∃ pre x post, ep = pre ++ x :: post ∧ (∀ y ∈ pre, Accepted req h y) ∧ Refused req h x e := by
  obtain ⟨h1, h2⟩ := convert_exact req ep h hc hb
  constructor
  · exact h1 e
  · rintro ⟨pre, x, post, rfl, hp, hx⟩
    cases hr : (convert req h (pre ++ x :: post)).2.2 with
    | ok ts => exact absurd (h2 ts hr x (by simp)) (refused_not_accepted hx)
    | error e' =>
      obtain ⟨pre', x', post', heq, hp', hx'⟩ := h1 e' hr
      rw [first_unique heq hp hp' hx hx']

example : (convert ["w"] exHeap [.dict (("w", .num 1) :: exDict), .dict exDict, .other 0]).2.2 = .error .value ∧
    (convert [] exHeap [.dict exDict, .dict [], .other 0]).2.2 = .error .type := by decide +kernel

/-- The further attributes are those of the dictionary, each as often, sorted by name. -/
theorem C238_custom_partial {h h' : Heap} {d : PyDict String Val} {t : TObj} (hc : Closed h) (hb : BoundD h d)
    (hn : h.new d = (h', .ok t)) :
    t.custom.Perm (d.filter fun x => x.1 ∉ ["state", "action", "next_state", "reward", "terminal"]) ∧
      t.custom.Pairwise fun x y => x.1 ≤ y.1 := by
  obtain ⟨_, _, _, _, _, _, _, _, _, _, _, m2, _⟩ := new_ok hc hb hn
  rw [m2]
  exact ⟨sorted_perm _, sorted_sorted _⟩

example : ((exHeap.new (exDict ++ [("b", .num 1), ("a", .num 2)])).2.map fun t => t.custom) = .ok [("a", .num 2), ("b", .num 1)] := by
  decide +kernel

/-! ### C239 -/

/-- The buffers that storing values makes, with episodes that fit. -/
def Made (N : Nat) (hist : List (List TVal)) (b : Buffer TVal) : Prop :=
  (∀ ep ∈ hist, ep.length ≤ N) ∧ b = (Buffer.new TVal N).run .ok hist

/-- An episode of dictionaries that make transitions is stored, if it is not too long. -/
def C239_full : Prop :=
  ∀ (req : List String) (h : Heap) (N : Nat) (hist : List (List TVal)) (b : Buffer TVal) (ep : List (PyDict String Val)), 1 ≤ N →
    Made N hist b → Closed h → (∀ d ∈ ep, BoundD h d) → ep ≠ [] → ep.length ≤ N →
    (∃ ts, (convert req h (ep.map .dict)).2.2 = .ok ts) → (store req h b (ep.map .dict)).result = .ok ()

/-- The transition with the logarithm of the probability of the action, as IMPALA wants it, still in the graph. -/
def exLog : PyDict String Val := exDict ++ [("action_log_prob", .ref 1)]

theorem exLog_bound : BoundD exHeap exLog := by
  intro x hx
  rcases List.mem_append.1 hx with hx | hx
  · exact exDict_bound x hx
  · rw [List.mem_singleton.1 hx]
    show 1 < exHeap.size
    decide

theorem C239_violated : ¬ C239_full := by
  intro hf
  have h1 := hf [] exHeap 3 [] _ [exLog] (by decide) ⟨by simp, rfl⟩ exHeap_closed (by
    intro d hd
    rw [List.mem_singleton.1 hd]
    exact exLog_bound) (by simp) (by decide) ⟨_, rfl⟩
  revert h1
  decide +kernel

/-- A stored value, for the example. -/
def exVal (n : Nat) : TVal := ⟨[], [("reward", .num n)], []⟩

/-- Three transitions are stored in a buffer for three; then an episode of two is stored whose second transition has a tensor of a graph as
custom attribute. The call raises, but the first transition of the refused episode has taken the place of the first one stored: sampling
everything returns it as a part of the old episode. -/
theorem C239_violated_mixed :
    let b := (Buffer.new TVal 3).run .ok [[exVal 1, exVal 2, exVal 3]]
    let r := store [] exHeap b [.dict exDict, .dict exLog]
    r.result = .error .runtime ∧ r.buffer.eth = b.eth ∧ b.sampleAll = .ok (3, [exVal 1, exVal 2, exVal 3]) ∧
      ∃ v, v.sub = [("reward", .num 1), ("terminal", .bool false)] ∧ r.buffer.sampleAll = .ok (3, [v, exVal 2, exVal 3]) := by
  refine ⟨by decide +kernel, by decide +kernel, by decide +kernel, ⟨[("state", .dict [("state", .tensor 10 (some 1) false .plain)]),
    ("action", .dict [("action", .tensor 11 (some 1) false .plain)]), ("next_state", .dict [("state", .tensor 10 (some 1) false .plain)])],
    [("reward", .num 1), ("terminal", .bool false)], []⟩, rfl, by decide +kernel⟩

/-- If no copy fails, storing objects is storing their values as they are after building: all laws of C01 to C05 apply. -/
theorem C239_values_partial (req : List String) (h h' : Heap) (b : Buffer TVal) (ep ys : List Item) (ts : List TObj) (h0 : ep ≠ [])
    (hcv : convert req h ep = (h', ys, .ok ts)) (hk : ∀ t ∈ ts, h'.copiesTrans t = true) (hne : ts ≠ []) :
    (store req h b ep).buffer = (b.storeEpisode .ok (ts.map h'.readT)).1 ∧
      (store req h b ep).result = (b.storeEpisode .ok (ts.map h'.readT)).2 ∧ (store req h b ep).heap = h' ∧
      (store req h b ep).episode = ys := by
  have h0' : ¬ ep.length = 0 := by simpa using h0
  have h1' : ¬ (ts.map h'.readT).length = 0 := by simpa using hne
  unfold store Buffer.storeEpisode
  rw [if_neg h0', if_neg h1']
  simp only [hcv, convAll_id, storeTrans, Storage.storeEpisode, storeLoop_ok h' ts b.storage hk]
  cases b.storage.storeLoop (ts.map h'.readT) with
  | mk s r =>
    cases r with
    | error e => simp
    | ok ps =>
      simp only
      by_cases hp : ps.Nodup
      · rw [if_pos hp]
        simp only
        cases assignLoop b.counter ps b.ten b.eth with
        | mk ten r2 =>
          obtain ⟨eth, r2⟩ := r2
          cases r2 <;> simp
      · rw [if_neg hp]
        simp

/-- An episode of dictionaries is stored if it fits, its transitions can be built, and none of the further attributes holds a tensor that is
the result of an operation in a graph — whatever states, actions and rewards are. What is stored has no graph in state, action, next state, reward
and terminal. -/
theorem C239_stored_partial (req : List String) (h h' : Heap) (N : Nat) (hist : List (List TVal)) (b : Buffer TVal)
    (ep : List (PyDict String Val)) (ys : List Item) (ts : List TObj) (hN : 1 ≤ N) (hm : Made N hist b) (hc : Closed h)
    (hb : ∀ d ∈ ep, BoundD h d) (h0 : ep ≠ []) (hlen : ep.length ≤ N) (hcv : convert req h (ep.map .dict) = (h', ys, .ok ts))
    (hcu : ∀ d ∈ ep, ∀ x ∈ d, x.1 ∉ ["state", "action", "next_state", "reward", "terminal"] → h.copies x.2 = true) :
    (store req h b (ep.map .dict)).result = .ok () ∧
      Made N (hist ++ [ts.map h'.readT]) (store req h b (ep.map .dict)).buffer ∧ ts.length = ep.length ∧
      ∀ v ∈ ts.map h'.readT, ∀ x ∈ v.major ++ v.sub, ∃ r, x.2 = plain r := by
  obtain ⟨⟨M, hd⟩, hf⟩ := convert_good req ep h h' ys ts hc hb hcv
  have hl : ts.length = ep.length := hf.length_eq.symm
  have hne : ts ≠ [] := by
    intro e
    rw [e] at hl
    exact h0 (List.length_eq_zero_iff.1 hl.symm)
  have hk : ∀ t ∈ ts, h'.copiesTrans t = true := by
    intro t ht
    obtain ⟨d, hdm, g1, g2⟩ := forall₂_mem hf t ht
    simp only [Heap.copiesTrans, List.all_eq_true]
    intro x hx
    rcases List.mem_append.1 hx with hx | hx
    · obtain ⟨r, hr⟩ := g1 x hx
      exact copies_of_plain hr
    · obtain ⟨x1, x2⟩ := (g2 x).1 hx
      exact copies_mono hc hd x.2 (hb d hdm x x1) (hcu d hdm x x1 x2)
  obtain ⟨s1, s2, _, _⟩ := C239_values_partial req h h' b (ep.map .dict) ys ts (by simpa using h0) hcv hk hne
  obtain ⟨m1, m2⟩ := hm
  have hinv : BInv N (Replay.Spec.accepted (.ok : TVal → Except Err TVal) hist) b := by
    have := run_inv (N := N) (.ok : TVal → Except Err TVal) hist _ [] (BInv.new TVal hN) m1
    rw [← m2] at this
    simpa using this
  have hmap : (ts.map h'.readT).mapM (.ok : TVal → Except Err TVal) = .ok (ts.map h'.readT) := by
    rw [← convAll_eq, convAll_id]
  obtain ⟨b', hb', _⟩ := storeEpisode_accept (.ok : TVal → Except Err TVal) hinv (ts.map h'.readT) (ts.map h'.readT) (by simpa using hne) hmap
    (by simp [hl, hlen])
  refine ⟨by rw [s2, hb'], ⟨?_, ?_⟩, hl, ?_⟩
  · intro e he
    rcases List.mem_append.1 he with he | he
    · exact m1 e he
    · rw [List.mem_singleton.1 he]
      simp [hl, hlen]
  · rw [s1, m2]
    simp [Buffer.run]
  · intro v hv x hx
    obtain ⟨t, ht, rfl⟩ := List.mem_map.1 hv
    obtain ⟨d, hdm, g1, g2⟩ := forall₂_mem hf t ht
    simp only [Heap.readT, ← List.map_append] at hx
    obtain ⟨y, hy, rfl⟩ := List.mem_map.1 hx
    exact g1 y hy

/-- Otherwise the first copy that fails decides: `RuntimeError`; the dictionaries of the buffer are as before, but the transitions before it
have been written over the oldest ones of the ring. -/
theorem C239_half_partial (req : List String) (h h' : Heap) (N : Nat) (hist : List (List TVal)) (b : Buffer TVal) (ep ys : List Item)
    (pre post : List TObj) (t : TObj) (hN : 1 ≤ N) (hm : Made N hist b) (h0 : ep ≠ [])
    (hcv : convert req h ep = (h', ys, .ok (pre ++ t :: post))) (hp : ∀ t ∈ pre, h'.copiesTrans t = true) (ht : h'.copiesTrans t = false) :
    let r := store req h b ep
    let all := (Replay.Spec.accepted (.ok : TVal → Except Err TVal) hist).flatten ++ pre.map h'.readT
    r.result = .error .runtime ∧ r.buffer.ten = b.ten ∧ r.buffer.eth = b.eth ∧ r.buffer.counter = b.counter + 1 ∧
      r.buffer.size = min N all.length ∧ ∀ k, k < all.length → all.length ≤ k + N → r.buffer.storage.data[k % N]? = all[k]? := by
  obtain ⟨m1, m2⟩ := hm
  have hinv : BInv N (Replay.Spec.accepted (.ok : TVal → Except Err TVal) hist) b := by
    have := run_inv (N := N) (.ok : TVal → Except Err TVal) hist _ [] (BInv.new TVal hN) m1
    rw [← m2] at this
    simpa using this
  obtain ⟨s', e, hs'⟩ := storeLoop_fail h' pre _ b.storage hinv.store hp t post ht
  have h0' : ¬ ep.length = 0 := by simpa using h0
  have hst : store req h b ep = ⟨h', ys, { b with counter := b.counter + 1, storage := s' }, .error .runtime⟩ := by
    unfold store
    rw [if_neg h0']
    simp only [hcv, storeTrans, e]
  simp only [hst]
  exact ⟨trivial, trivial, trivial, trivial, hs'.len, hs'.get⟩

/-- Exactly what can be copied: transitions that show no result of an operation in a graph; parameters, which are leaves, are copied. -/
theorem C239_copies_partial (h : Heap) (t : TObj) : h.copiesTrans t = true ↔
    ∀ x ∈ (h.readT t).major ++ (h.readT t).sub ++ (h.readT t).custom, noNode x.2 := by
  simp only [Heap.copiesTrans, Heap.readT, ← List.map_append, List.all_eq_true, List.forall_mem_map, copies_read]

example : (exHeap.alloc (.tensor 12 (some 1) false .leaf)).copiesTrans ⟨[], [], [("w", .ref 4)]⟩ = true := by decide +kernel

/-- A refused episode: an empty one changes nothing at all, one with an item that is refused uses up the next episode number and changes nothing
else of the buffer. -/
theorem C239_refused_partial (req : List String) (h h' : Heap) (b : Buffer TVal) (ep ys : List Item) (e : Err) :
    ((store req h b []).buffer = b ∧ (store req h b []).result = .error .value) ∧
      (ep ≠ [] → convert req h ep = (h', ys, .error e) →
        (store req h b ep).buffer = { b with counter := b.counter + 1 } ∧ (store req h b ep).result = .error e ∧
          (store req h b ep).heap = h' ∧ (store req h b ep).episode = ys) := by
  refine ⟨⟨rfl, rfl⟩, fun h0 hcv => ?_⟩
  have h0' : ¬ ep.length = 0 := by simpa using h0
  unfold store
  rw [if_neg h0']
  simp only [hcv]
  exact ⟨trivial, trivial, trivial, trivial⟩

example : (store [] exHeap (Buffer.new _ 3) [.dict exDict, .other 0]).result = .error .value := by decide +kernel

/-- A further attribute that is a tensor of a graph makes the copy fail. -/
theorem C239_custom_partial (h : Heap) (t : TObj) (k : String) (a : Nat) (d : Nat) (r : Option Nat) (bo : Bool)
    (hx : (k, .ref a) ∈ t.custom) (ho : h.obj a = .tensor d r bo .node) : h.copiesTrans t = false := by
  cases hk : h.copiesTrans t with
  | false => rfl
  | true =>
    simp only [Heap.copiesTrans, List.all_eq_true] at hk
    have := hk (k, .ref a) (List.mem_append_right _ hx)
    simp [Heap.copies, ho, Heap.copiesTensor] at this

example : Made 3 [[exVal 1, exVal 2, exVal 3]] ((Buffer.new TVal 3).run .ok [[exVal 1, exVal 2, exVal 3]]) :=
  ⟨by decide, rfl⟩

example : (store ["action"] exHeap ((Buffer.new TVal 3).run .ok [[exVal 1, exVal 2, exVal 3]]) ([exDict, exDict].map .dict)).result =
    .ok () :=
  (C239_stored_partial ["action"] exHeap _ 3 [[exVal 1, exVal 2, exVal 3]] _ [exDict, exDict] _ _ (by decide) ⟨by decide, rfl⟩ exHeap_closed
    (by
      intro d hd
      have : d = exDict := by simpa using hd
      rw [this]
      exact exDict_bound) (by simp) (by decide) rfl (by
      intro d hd x hx hn
      have : d = exDict := by simpa using hd
      rw [this] at hx
      simp only [exDict, List.mem_cons, List.not_mem_nil, or_false] at hx
      rcases hx with rfl | rfl | rfl | rfl | rfl <;> simp at hn)).1

end Machin.Build
