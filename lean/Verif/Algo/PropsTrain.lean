import Mathlib.Data.List.Induction
import Verif.Algo.Train

/-! # Properties of the training loops (C104, C106, C107, C111) -/

namespace Machin.Algo

variable {P : Type}

/-! ### C104: the ratio of PPO is measured against the actor at the start of the update -/

/-- The parameters after `k` steps of gradient descent on the surrogate with the old parameters fixed. -/
def descend (opt : P → P → P) (grad : P → P → P) (old : P) : Nat → P
  | 0 => old
  | k + 1 => opt (descend opt grad old k) (grad old (descend opt grad old k))

theorem loop_ok (opt : P → P → P) (grad : P → P → P) (tmp : Nat) (s : Ppo P) (n : Nat) (ht : tmp ≠ s.actor) (ho : s.optim = s.actor) :
    let r := s.loop opt grad true tmp (List.replicate n none)
    r.2.2 = none ∧ r.1.actor = s.actor ∧ r.1.optim = s.optim ∧ r.1.heap tmp = s.heap tmp ∧
    r.2.1.length = n ∧ r.1.next = s.next ∧
    (∀ (k : Nat) (new : Nat → P), (∀ j, descend opt grad (s.heap tmp).params (k + j) = new j) → (s.heap s.actor).params = new 0 →
      (r.1.heap s.actor).params = new n ∧ ∀ i, i < n → r.2.1[i]? = some ((s.heap tmp).params, new i)) := by
  induction n generalizing s with
  | zero =>
    simp only [List.replicate, Ppo.loop]
    refine ⟨trivial, trivial, trivial, trivial, rfl, trivial, fun k new h h0 => ⟨h0, fun i hi => by omega⟩⟩
  | succ n ih =>
    rw [List.replicate_succ]
    simp only [Ppo.loop, Ppo.iteration, ↓reduceIte]
    have hne : ¬ s.actor = tmp := fun e => ht e.symm
    set s' : Ppo P := Ppo.train opt { heap := s.heap, actor := s.actor, optim := s.optim, next := s.next }
      (grad (s.heap tmp).params (s.heap s.actor).params) with hs'
    have h1 : s'.actor = s.actor := rfl
    have h2 : s'.optim = s.optim := rfl
    have h3 : s'.next = s.next := rfl
    have h4 : s'.heap tmp = s.heap tmp := by
      simp [hs', Ppo.train, assign, ho, ht]
    have h5 : (s'.heap s.actor).params = opt (s.heap s.actor).params (grad (s.heap tmp).params (s.heap s.actor).params) := by
      simp [hs', Ppo.train, assign, ho, Net.optStep]
    have := ih s' (by rw [h1]; exact ht) (by rw [h1, h2]; exact ho)
    dsimp only at this
    rw [h1, h2, h3, h4] at this
    obtain ⟨a1, a2, a3, a4, a5, a6, a7⟩ := this
    refine ⟨a1, a2, a3, a4, by simp [a5], a6, ?_⟩
    intro k new hd h0
    have hn : (s'.heap s.actor).params = new 1 := by
      have e0 := hd 0
      have e1 := hd 1
      rw [h5, h0, ← e0, ← e1]
      rfl
    obtain ⟨b1, b2⟩ := a7 (k + 1) (fun j => new (j + 1)) (fun j => by rw [← hd (j + 1)]; congr 1; omega) hn
    refine ⟨b1, ?_⟩
    intro i hi
    cases i with
    | zero => simp [h0]
    | succ i => rw [List.getElem?_cons_succ]; exact b2 i (by omega)

/-- C104: as long as nothing raises, iteration `i` compares the parameters after `i` steps with the parameters at the start of the
update; afterwards `self.actor` is the same object as before, and its parameters have made one step per iteration. -/
theorem C104_ratio_partial (opt : P → P → P) (grad : P → P → P) (s : Ppo P) (ha : s.actor < s.next) (ho : s.optim = s.actor) (n : Nat) :
    let r := s.update opt grad true (List.replicate n none)
    let old := (s.heap s.actor).params
    r.2.2 = none ∧ r.1.actor = s.actor ∧ r.1.optim = s.optim ∧ r.2.1.length = n ∧
    (r.1.heap r.1.actor).params = descend opt grad old n ∧
    ∀ i, i < n → r.2.1[i]? = some (old, descend opt grad old i) := by
  have hne : s.next ≠ s.actor := by omega
  have h := loop_ok opt grad s.next s.copyActor.1 n hne ho
  dsimp only at h
  obtain ⟨a1, a2, a3, a4, a5, a6, a7⟩ := h
  have e1 : (s.copyActor.1.heap s.next).params = (s.heap s.actor).params := by simp [Ppo.copyActor, assign]
  have e2 : (s.copyActor.1.heap s.copyActor.1.actor).params = (s.heap s.actor).params := by
    have : ¬ s.actor = s.next := fun e => hne e.symm
    simp [Ppo.copyActor, assign, this]
  obtain ⟨b1, b2⟩ := a7 0 (descend opt grad (s.heap s.actor).params) (fun j => by rw [e1, Nat.zero_add]) (by rw [e2]; rfl)
  dsimp only
  refine ⟨a1, a2, a3, a5, ?_, ?_⟩
  · show ((s.copyActor.1.loop opt grad true s.next (List.replicate n none)).1.heap
      (s.copyActor.1.loop opt grad true s.next (List.replicate n none)).1.actor).params = _
    rw [a2]
    exact b1
  · intro i hi
    rw [← e1]
    rw [e1]
    have := b2 i hi
    rw [e1] at this
    exact this

/-- C104: with `update_policy=False` no parameter of any network changes, and the ratio is one in every iteration. -/
theorem C104_no_update_partial (opt : P → P → P) (grad : P → P → P) (s : Ppo P) (ha : s.actor < s.next) (n : Nat) :
    let r := s.update opt grad false (List.replicate n none)
    r.1.actor = s.actor ∧ (∀ i, i < s.next → r.1.heap i = s.heap i) ∧ ∀ p ∈ r.2.1, p.1 = p.2 := by
  have key : ∀ (s : Ppo P) (tmp : Nat), (s.heap tmp).params = (s.heap s.actor).params →
      (s.loop opt grad false tmp (List.replicate n none)).1 = s ∧ ∀ p ∈ (s.loop opt grad false tmp (List.replicate n none)).2.1, p.1 = p.2 := by
    intro s tmp he
    induction n with
    | zero => exact ⟨rfl, by simp [Ppo.loop]⟩
    | succ n ih =>
      rw [List.replicate_succ]
      simp only [Ppo.loop, Ppo.iteration, Bool.false_eq_true, ↓reduceIte]
      refine ⟨ih.1, ?_⟩
      intro p hp
      rcases List.mem_cons.mp hp with rfl | hp
      · exact he
      · exact ih.2 p hp
  have hne : ¬ s.actor = s.next := by omega
  have h := key s.copyActor.1 s.next (by simp [Ppo.copyActor, assign, hne])
  dsimp only
  unfold Ppo.update
  rw [show s.copyActor.2 = s.next from rfl, h.1]
  refine ⟨rfl, ?_, h.2⟩
  intro i hi
  have : ¬ i = s.next := by omega
  simp [Ppo.copyActor, assign, this]

/-- C104: an update ends with the first exception of an evaluation of the old actor, after the iterations before it; without one it makes all its
iterations. -/
theorem C104_exception_partial (opt : P → P → P) (grad : P → P → P) (b : Bool) (s : Ppo P) (es : List (Option Err)) :
    (s.update opt grad b es).2.2 = (es.filterMap id).head? ∧
    (s.update opt grad b es).2.1.length = (es.takeWhile Option.isNone).length := by
  unfold Ppo.update
  generalize s.copyActor.1 = s', s.copyActor.2 = tmp
  induction es generalizing s' with
  | nil => exact ⟨rfl, rfl⟩
  | cons e es ih =>
    cases e with
    | some e => exact ⟨rfl, rfl⟩
    | none =>
      rw [Ppo.loop]
      cases hi : s'.iteration opt grad b none tmp with
      | mk s'' r =>
        cases r with
        | error e => simp [Ppo.iteration] at hi
        | ok p =>
          have := ih s''
          exact ⟨by simpa using this.1, by simpa using this.2⟩

/-- C104 in full: also when an update raises, `self.actor` stays the network that the optimizer trains. -/
def C104_full : Prop :=
  ∀ (opt grad : Nat → Nat → Nat) (s : Ppo Nat), s.actor < s.next → s.optim = s.actor → ∀ (b : Bool) (es : List (Option Err)),
    (s.update opt grad b es).1.actor = s.actor

/-- The two networks are different objects, and both exist. -/
def Lost (s : Ppo P) : Prop := s.actor ≠ s.optim ∧ s.actor < s.next ∧ s.optim < s.next

theorem iteration_lost (opt : P → P → P) (grad : P → P → P) (b : Bool) (e : Option Err) (tmp : Nat) (s : Ppo P) (h : Lost s) (ht : tmp ≠ s.optim)
    (htn : tmp < s.next) (hp : (s.heap tmp).params = (s.heap s.actor).params) :
    let r := (s.iteration opt grad b e tmp).1
    Lost r ∧ tmp ≠ r.optim ∧ r.optim = s.optim ∧ r.next = s.next ∧ (r.heap r.actor).params = (s.heap s.actor).params ∧
      (r.heap tmp).params = (s.heap tmp).params := by
  cases e with
  | some e =>
    simp only [Ppo.iteration]
    exact ⟨⟨ht, htn, h.2.2⟩, ht, trivial, trivial, hp, trivial⟩
  | none =>
    simp only [Ppo.iteration]
    cases b with
    | false => exact ⟨h, ht, rfl, rfl, rfl, rfl⟩
    | true =>
      simp only [↓reduceIte]
      refine ⟨h, ht, rfl, rfl, ?_, ?_⟩
      · simp only [Ppo.train, assign, if_neg h.1, ↓reduceIte]
      · simp only [Ppo.train, assign, if_neg ht]
        split
        · rename_i hta; rw [hta]
        · rfl

/-- C104 is violated: when the evaluation of the old actor raises, `self.actor` stays the temporary copy. From then on no update, however
many, changes the parameters of `self.actor`: the optimizer trains the other network. -/
theorem C104_violated_lost (opt : P → P → P) (grad : P → P → P) (s : Ppo P) (ha : s.actor < s.next) (ho : s.optim = s.actor) (b : Bool) (e : Err)
    (es : List (Option Err)) (us : List (Bool × List (Option Err))) :
    let broken := (s.update opt grad b (some e :: es)).1
    broken.actor ≠ s.actor ∧ broken.actor ≠ broken.optim ∧
    ((broken.updates opt grad us).heap (broken.updates opt grad us).actor).params = (s.heap s.actor).params := by
  have hloop : ∀ (es : List (Option Err)) (b : Bool) (tmp : Nat) (s : Ppo P), Lost s → tmp ≠ s.optim → tmp < s.next →
      (s.heap tmp).params = (s.heap s.actor).params →
      Lost (s.loop opt grad b tmp es).1 ∧ ((s.loop opt grad b tmp es).1.heap (s.loop opt grad b tmp es).1.actor).params = (s.heap s.actor).params := by
    intro es b tmp
    induction es with
    | nil => intro s h _ _ _; exact ⟨h, rfl⟩
    | cons e es ih =>
      intro s h ht htn hp
      have hi := iteration_lost opt grad b e tmp s h ht htn hp
      dsimp only at hi
      unfold Ppo.loop
      revert hi
      generalize s.iteration opt grad b e tmp = r
      obtain ⟨s', res⟩ := r
      intro hi
      obtain ⟨c1, c2, c3, c4, c5, c6⟩ := hi
      cases res with
      | error e => exact ⟨c1, c5⟩
      | ok p =>
        have := ih s' c1 c2 (by rw [c4]; exact htn) (by rw [c6, c5, hp])
        exact ⟨this.1, by rw [← c5]; exact this.2⟩
  have hupd : ∀ (us : List (Bool × List (Option Err))) (s : Ppo P), Lost s →
      ((s.updates opt grad us).heap (s.updates opt grad us).actor).params = (s.heap s.actor).params := by
    intro us
    induction us with
    | nil => intro s _; rfl
    | cons u us ih =>
      intro s h
      have hne : ¬ s.actor = s.next := by have := h.2.1; omega
      have hl : Lost s.copyActor.1 := ⟨h.1, by have := h.2.1; simp [Ppo.copyActor]; omega, by have := h.2.2; simp [Ppo.copyActor]; omega⟩
      have := hloop u.2 u.1 s.next s.copyActor.1 hl (by have := h.2.2; simp [Ppo.copyActor]; omega) (by simp [Ppo.copyActor])
        (by simp [Ppo.copyActor, assign, hne])
      have e2 : (s.copyActor.1.heap s.copyActor.1.actor).params = (s.heap s.actor).params := by simp [Ppo.copyActor, assign, hne]
      rw [e2] at this
      have h3 := ih (s.update opt grad u.1 u.2).1 this.1
      unfold Ppo.updates
      exact h3.trans this.2
  have hne : ¬ s.actor = s.next := by omega
  intro broken
  have hb : broken = { s.copyActor.1 with actor := s.next } := rfl
  have hl : Lost broken := by
    rw [hb]
    refine ⟨?_, ?_, ?_⟩
    · simp [Ppo.copyActor, ho]; omega
    · simp [Ppo.copyActor]
    · simp [Ppo.copyActor, ho]; omega
  refine ⟨by rw [hb]; exact fun e => hne e.symm, hl.1, ?_⟩
  rw [hupd us broken hl, hb]
  simp [Ppo.copyActor, assign]

theorem C104_violated : ¬ C104_full := by
  intro h
  have := h (fun p _ => p) (fun _ _ => 0) ⟨fun _ => ⟨0, none⟩, 0, 0, 1⟩ (by decide) rfl true [some .runtime]
  revert this
  decide

example : let s : Ppo Int := ⟨fun _ => ⟨10, none⟩, 0, 0, 1⟩
    (s.update (fun p g => p - g) (fun old new => new - old + 1) true [none, none, none]).2.1 = [(10, 10), (10, 9), (10, 9)] ∧
    ((s.update (fun p g => p - g) (fun old new => new - old + 1) true [none, none, none]).1.heap 0).params = 9 := by decide

example : let s : Ppo Int := ⟨fun _ => ⟨10, none⟩, 0, 0, 1⟩
    let broken := (s.update (fun p g => p - g) (fun _ _ => 1) true [none, some .runtime]).1
    ((broken.updates (fun p g => p - g) (fun _ _ => 1) [(true, [none, none]), (true, [none])]).heap broken.actor).params = 10 := by decide

/-! ### C106: GAIL trains its discriminator -/

/-- C106 in full: an update of GAIL makes `discriminator_update_times` steps on the discriminator, and its discriminator loop does not
touch the actor. -/
def C106_full : Prop :=
  ∀ (optD : Nat → Nat → Nat) (g : Gail Nat → Nat) (s : Gail Nat),
    (s.discLoop optD true g 1).disc.params = optD s.disc.params (g s) ∧ (s.discLoop optD true g 1).actor = s.actor

theorem discLoop_disc (optD : P → P → P) (b : Bool) (g : Gail P → P) (n : Nat) (s : Gail P) :
    (s.discLoop optD b g n).disc.params = s.disc.params ∧ (s.discLoop optD b g n).critic = s.critic := by
  induction n generalizing s with
  | zero => exact ⟨rfl, rfl⟩
  | succ n ih =>
    unfold Gail.discLoop
    rw [(ih _).1, (ih _).2]
    unfold Gail.discIteration
    split <;> exact ⟨rfl, rfl⟩

theorem policyLoop_disc (optA optC : P → P → P) (l : List (Bool × P)) (s : Gail P) : (s.policyLoop optA optC l).disc = s.disc := by
  induction l generalizing s with
  | nil => rfl
  | cons x l ih =>
    obtain ⟨b, g⟩ := x
    cases b <;> (unfold Gail.policyLoop; rw [ih])

/-- C106 is violated: no number of updates ever changes the discriminator. -/
theorem C106_violated_never (optD optA optC : P → P → P) (g : Gail P → P) (times : Nat) (inner : Gail P → List (Bool × P)) (bs : List Bool)
    (s : Gail P) : (s.updates optD optA optC g times inner bs).disc.params = s.disc.params := by
  induction bs generalizing s with
  | nil => rfl
  | cons b bs ih =>
    unfold Gail.updates
    rw [ih, Gail.update, policyLoop_disc]
    exact (discLoop_disc optD b g times s).1

/-- C106 is violated: the discriminator loop moves the actor, along the gradient left over from the last policy update, and repeatedly. -/
theorem C106_violated_actor (optD : P → P → P) (g : Gail P → P) (times : Nat) (s : Gail P) (left : P) (h : s.actor.grad = some left) :
    (s.discLoop optD true g times).actor = ⟨Nat.repeat (fun p => optD p left) times s.actor.params, some left⟩ := by
  have key : ∀ (n : Nat) (f : P → P) (x : P), Nat.repeat f n (f x) = Nat.repeat f (n + 1) x := by
    intro n f x
    induction n with
    | zero => rfl
    | succ n ih => show f (Nat.repeat f n (f x)) = _; rw [ih]; rfl
  induction times generalizing s with
  | zero =>
    obtain ⟨⟨p, gr⟩, c, d⟩ := s
    simp only at h
    subst h
    rfl
  | succ n ih =>
    unfold Gail.discLoop
    have he : (s.discIteration optD true (g s)).actor = ⟨optD s.actor.params left, some left⟩ := by
      obtain ⟨⟨p, gr⟩, c, d⟩ := s
      simp only at h
      subst h
      rfl
    rw [ih _ (by rw [he]), he]
    dsimp only
    rw [key]

theorem C106_violated : ¬ C106_full := by
  intro h
  have := (h (fun _ _ => 1) (fun _ => 0) ⟨⟨0, none⟩, ⟨0, none⟩, ⟨0, none⟩⟩).1
  revert this
  decide

/-- C106, what holds: the gradient of the discriminator loss is stored in the discriminator, the critic is not touched by the loop, and with
`update_discriminator=False` the loop changes nothing. -/
theorem C106_rest_partial (optD : P → P → P) (g : Gail P → P) (s : Gail P) (n : Nat) :
    (s.discIteration optD true (g s)).disc.grad = some (g s) ∧ (s.discLoop optD true g n).critic = s.critic ∧
    s.discLoop optD false g n = s := by
  refine ⟨rfl, (discLoop_disc optD true g n s).2, ?_⟩
  induction n with
  | zero => rfl
  | succ n ih => unfold Gail.discLoop; simpa [Gail.discIteration] using ih

/-- C106: the policy update of GAIL trains the actor with its gradients and the critic with its own, in order, and leaves the discriminator. -/
theorem C106_policy_partial (optA optC : P → P → P) (l : List (Bool × P)) (s : Gail P) :
    (s.policyLoop optA optC l).actor.params = ((l.filter (·.1)).map (·.2)).foldl optA s.actor.params ∧
    (s.policyLoop optA optC l).critic.params = ((l.filter (!·.1)).map (·.2)).foldl optC s.critic.params ∧
    (s.policyLoop optA optC l).disc = s.disc := by
  refine ⟨?_, ?_, policyLoop_disc optA optC l s⟩
  · induction l generalizing s with
    | nil => rfl
    | cons x l ih => obtain ⟨b, g⟩ := x; cases b <;> (unfold Gail.policyLoop; rw [ih]; rfl)
  · induction l generalizing s with
    | nil => rfl
    | cons x l ih => obtain ⟨b, g⟩ := x; cases b <;> (unfold Gail.policyLoop; rw [ih]; rfl)

/-- Two updates of a GAIL with integer networks: the discriminator stays at 5, the actor is moved by the discriminator optimizer (step 100). -/
example : let s : Gail Int := ⟨⟨0, none⟩, ⟨0, none⟩, ⟨5, none⟩⟩
    s.updates (fun p g => p - 100 * g) (fun p g => p - g) (fun p g => p - g) (fun _ => 7) 1 (fun _ => [(true, 1), (false, 2)]) [true, true] =
      ⟨⟨-102, some 1⟩, ⟨-4, some 2⟩, ⟨5, some 7⟩⟩ := by decide

/-! ### C107: expert episodes -/

/-- C107 in full: every element of an expert episode is stored, in order, whether given as a dictionary or as an `ExpertTransition`. -/
def C107_full : Prop := ∀ episode : List (ExpertItem Nat), expertEpisode episode = episode.map ExpertItem.content

/-- C107 is violated: `ExpertTransition` objects, which the signature allows, are dropped without notice. -/
theorem C107_violated_dropped {T : Type} (ts : List T) : expertEpisode (ts.map .trans) = [] := by
  simp [expertEpisode, List.filterMap_map, Function.comp_def]

theorem C107_violated : ¬ C107_full := by
  intro h
  have := h [.trans 1]
  revert this
  decide

/-- C107, the part that holds: the dictionaries of an episode are stored, in order; so an episode of dictionaries is stored completely. -/
theorem C107_dicts_partial {T : Type} (episode : List (ExpertItem T)) :
    expertEpisode episode = (episode.filter fun x => match x with | .dict _ => true | .trans _ => false).map ExpertItem.content ∧
    ((∀ x ∈ episode, ∃ t, x = .dict t) → expertEpisode episode = episode.map ExpertItem.content) := by
  constructor
  · induction episode with
    | nil => rfl
    | cons x xs ih =>
      cases x with
      | dict t => simpa [expertEpisode, ExpertItem.content] using ih
      | trans t => simpa [expertEpisode] using ih
  · intro h
    induction episode with
    | nil => rfl
    | cons x xs ih =>
      obtain ⟨t, rfl⟩ := h x (by simp)
      have := ih fun y hy => h y (by simp [hy])
      simpa [expertEpisode, ExpertItem.content] using this

example : expertEpisode [.dict 3, .trans 4, .dict 5] = [3, 5] := by decide

/-! ### C111: A3C pushes what it computed -/

theorem gradLoop_ok (b : Bool) (n : Net P) (gs : List P) :
    gradLoop b n (gs.map .ok) = ((if b then ⟨n.params, gs.getLast?.or n.grad⟩ else n), none) := by
  induction gs generalizing n with
  | nil => cases b <;> simp [gradLoop]
  | cons g gs ih =>
    simp only [List.map_cons, gradLoop]
    rw [ih]
    cases b with
    | false => simp
    | true =>
      simp only [↓reduceIte, Prod.mk.injEq, and_true]
      cases h : gs.getLast? with
      | none =>
        rw [List.getLast?_eq_none_iff] at h
        simp [h]
      | some x =>
        obtain ⟨l, rfl⟩ := List.getLast?_eq_some_iff.mp h
        rw [← List.cons_append, List.getLast?_append]
        simp

/-- C111 in full: an update sends the gradients of all its iterations, here their sum, for the networks it was asked to update, nothing for
the others, and returns the losses. -/
def C111_full : Prop :=
  ∀ (s : A3c Nat) (b c : Bool) (ga gc : List Nat), ga ≠ [] → gc ≠ [] →
    (s.update (some 0) none none b c (ga.map .ok) (gc.map .ok)).2 =
      ⟨if c then some ga.sum else none, if b then some gc.sum else none, none, true⟩

/-- C111 is violated: of all iterations only the gradient of the last one is sent, and no losses are returned. -/
theorem C111_violated_last (zero : Option P) (pa pc : Option P) (s : A3c P) (as cs : List P) (ga gc : P) :
    (s.update zero pa pc true true ((as ++ [ga]).map .ok) ((cs ++ [gc]).map .ok)).2 = ⟨some ga, some gc, none, false⟩ := by
  unfold A3c.update
  simp only [gradLoop_ok, ↓reduceIte]
  simp [pushGrad]

/-- C111 is violated: with `update_policy=False` the actor's gradient is sent all the same, whatever is left in it; a worker that has none
gets `RuntimeError`. -/
theorem C111_violated_flag (zero : Option P) (pa pc : Option P) (s : A3c P) (as cs : List P) (gc : P) :
    (∀ g, s.actor.grad = some g →
      (s.update zero pa pc true false (as.map .ok) ((cs ++ [gc]).map .ok)).2 = ⟨some g, some gc, none, false⟩) ∧
    (s.actor.grad = none → (s.update zero pa pc true false (as.map .ok) ((cs ++ [gc]).map .ok)).2 = ⟨none, none, some .runtime, false⟩) := by
  unfold A3c.update
  simp only [gradLoop_ok, ↓reduceIte, Bool.false_eq_true]
  constructor
  · intro g h
    simp [pushGrad, h]
  · intro h
    simp [pushGrad, h]

/-- C111 is violated: when an iteration raises, synchronisation stays switched off: the worker acts with its old parameters until
`set_sync(True)` is called. -/
theorem C111_violated_sync (zero : Option P) (pa pc : Option P) (s : A3c P) (b c : Bool) (as : List P) (e : Err) (rest gc : List (Except Err P)) :
    (s.update zero pa pc b c (as.map .ok ++ .error e :: rest) gc).1.syncing = false ∧
    (s.update zero pa pc b c (as.map .ok ++ .error e :: rest) gc).2.error = some e := by
  have key : ∀ n : Net P, (gradLoop c n (as.map .ok ++ .error e :: rest)).2 = some e := by
    induction as with
    | nil => intro n; rfl
    | cons a as ih => intro n; simp only [List.map_cons, List.cons_append, gradLoop]; exact ih _
  unfold A3c.update
  dsimp only
  have := key s.actor
  revert this
  generalize gradLoop c s.actor (as.map .ok ++ .error e :: rest) = r
  obtain ⟨a, o⟩ := r
  intro h
  simp only at h
  subst h
  exact ⟨rfl, rfl⟩

theorem C111_violated : ¬ C111_full := by
  intro h
  have := h ⟨⟨0, none⟩, ⟨0, none⟩, true⟩ true true [1, 2] [3] (by simp) (by simp)
  revert this
  decide

/-- C111, what holds: while an update runs the parameters of the worker stay as they were; afterwards they are the ones pulled, if the server
had any, the gradients are cleared, and the synchronisation is as before. -/
theorem C111_rest_partial (zero : Option P) (pa pc : Option P) (s : A3c P) (as cs : List P) (ga gc : P) :
    (s.update zero pa pc true true ((as ++ [ga]).map .ok) ((cs ++ [gc]).map .ok)).1 =
      ⟨⟨pa.getD s.actor.params, zero⟩, ⟨pc.getD s.critic.params, zero⟩, s.syncing⟩ := by
  unfold A3c.update
  simp only [gradLoop_ok, ↓reduceIte]
  simp [pushGrad]

example : (A3c.update (some (0 : Int)) (some 50) none true true [.ok 1, .ok 2] [.ok 3] ⟨⟨7, none⟩, ⟨8, none⟩, true⟩) =
    (⟨⟨50, some 0⟩, ⟨8, some 0⟩, true⟩, ⟨some 2, some 3, none, false⟩) := by decide

end Machin.Algo
