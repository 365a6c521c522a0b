import Verif.Algo.LemmasBellman

/-!
# C202: fitting the targets of DQN is value iteration, and a table of zero loss is optimal on the batch

`update` changes the network so that the action values of the batch move towards the targets. Here the network is a table that fits
the targets exactly (the loss is 0, `Fits`), whatever optimizer has found it.
-/

namespace Machin.Algo

variable {S : Type}

/-- Every action of every successor state that is not the end of an episode is in the batch, too. -/
def Closed (width : Nat) (batch : List (Tr S Nat)) : Prop :=
  ∀ tr ∈ batch, tr.terminal = false → ∀ a < width, ∃ tr' ∈ batch, tr'.state = tr.next ∧ tr'.action = a

/-- Transitions that follow each other in one episode. -/
def Path : List (Tr S Nat) → Prop
  | [] => True
  | [_] => True
  | a :: b :: rest => a.terminal = false ∧ a.next = b.state ∧ Path (b :: rest)

/-- The discounted sum of the rewards of a list of transitions. -/
def ret (g : ℚ) : List (Tr S Nat) → ℚ
  | [] => 0
  | t :: ts => t.reward + g * ret g ts

/-- All transitions but the first take an action of largest value. -/
def Greedy (q : S → List ℚ) (p : List (Tr S Nat)) : Prop :=
  ∀ t ∈ p.tail, ∃ v, (q t.state)[t.action]? = some v ∧ ∀ x ∈ q t.state, x ≤ v

/-- Target networks that differ by at most `ε` at the successor states are fitted by tables that differ by at most `|γ| ε` on the batch. -/
theorem C202_contract (g ε : ℚ) (he : 0 ≤ ε) (q₁ q₂ T₁ T₂ : S → List ℚ) (batch : List (Tr S Nat))
    (h₁ : Fits .fixedTarget g q₁ T₁ batch) (h₂ : Fits .fixedTarget g q₂ T₂ batch)
    (hc : ∀ tr ∈ batch, tr.terminal = false → Close ε (T₁ tr.next) (T₂ tr.next)) :
    ∀ tr ∈ batch, ∃ x₁ x₂, (q₁ tr.state)[tr.action]? = some x₁ ∧ (q₂ tr.state)[tr.action]? = some x₂ ∧ |x₁ - x₂| ≤ |g| * ε := by
  intro tr ht
  obtain ⟨v₁, a₁, b₁⟩ := fits_row h₁ ht
  obtain ⟨v₂, a₂, b₂⟩ := fits_row h₂ ht
  refine ⟨_, _, b₁, b₂, ?_⟩
  apply rewardFunction_close _ _ _ _ _ _ he
  intro hb
  obtain ⟨i₁, m₁⟩ := nextQ_fixed a₁
  obtain ⟨i₂, m₂⟩ := nextQ_fixed a₂
  exact rowMax_close (hc tr ht hb) m₁ m₂

/-- One table after the other, each fitted to the targets of the one before (the target network is replaced after fitting): after `k + 1`
rounds the distance to a table of zero loss has shrunk by `|γ|^(k+1)`. -/
theorem C202_rate (g ε : ℚ) (he : 0 ≤ ε) (width : Nat) (q : Nat → S → List ℚ) (star : S → List ℚ) (batch : List (Tr S Nat))
    (hcl : Closed width batch) (hq : ∀ k s, (q k s).length = width) (hs : ∀ s, (star s).length = width)
    (hfit : ∀ k, Fits .fixedTarget g (q (k + 1)) (q k) batch) (hstar : Fits .fixedTarget g star star batch)
    (h0 : ∀ tr ∈ batch, tr.terminal = false → Close ε (q 0 tr.next) (star tr.next)) (k : Nat) :
    ∀ tr ∈ batch, ∃ x y, (q (k + 1) tr.state)[tr.action]? = some x ∧ (star tr.state)[tr.action]? = some y ∧ |x - y| ≤ |g| ^ (k + 1) * ε := by
  induction k with
  | zero =>
    intro tr ht
    rw [zero_add, pow_one]
    exact C202_contract g ε he _ _ _ _ batch (hfit 0) hstar h0 tr ht
  | succ k ih =>
    have hpos : 0 ≤ |g| ^ (k + 1) * ε := mul_nonneg (pow_nonneg (abs_nonneg _) _) he
    intro tr ht
    have := C202_contract g _ hpos _ _ _ _ batch (hfit (k + 1)) hstar (fun tr' ht' hn => ?_) tr ht
    · obtain ⟨x, y, h1, h2, h3⟩ := this
      refine ⟨x, y, h1, h2, ?_⟩
      rw [pow_succ' |g| (k + 1), mul_assoc]
      exact h3
    · refine ⟨by rw [hq, hs], ?_⟩
      intro i x x' hx hx'
      have hi : i < width := by rw [← hs tr'.next]; exact (List.getElem?_eq_some_iff.1 hx').1
      obtain ⟨tr2, m2, e2, e3⟩ := hcl tr' ht' hn i hi
      obtain ⟨y, y', g1, g2, g3⟩ := ih tr2 m2
      rw [e2, e3] at g1 g2
      rw [g1] at hx
      rw [g2] at hx'
      cases hx; cases hx'
      exact g3

/-- With a discount below 1 the tables converge to the table of zero loss on the batch, whatever the first table is. -/
theorem C202_converges (g : ℚ) (hg : |g| < 1) (width : Nat) (q : Nat → S → List ℚ) (star : S → List ℚ) (batch : List (Tr S Nat))
    (hcl : Closed width batch) (hq : ∀ k s, (q k s).length = width) (hs : ∀ s, (star s).length = width)
    (hfit : ∀ k, Fits .fixedTarget g (q (k + 1)) (q k) batch) (hstar : Fits .fixedTarget g star star batch) (η : ℚ) (hη : 0 < η) :
    ∃ K, ∀ k, K ≤ k → ∀ tr ∈ batch, ∃ x y, (q k tr.state)[tr.action]? = some x ∧ (star tr.state)[tr.action]? = some y ∧ |x - y| < η := by
  obtain ⟨ε, he, hc⟩ := exists_close_all (q 0) star (fun s => by rw [hq, hs]) (batch.map (·.next))
  have h0 : ∀ tr ∈ batch, tr.terminal = false → Close ε (q 0 tr.next) (star tr.next) :=
    fun tr ht _ => hc _ (List.mem_map.2 ⟨tr, ht, rfl⟩)
  obtain ⟨N, hN⟩ := exists_pow_lt_of_lt_one (show (0 : ℚ) < η / (ε + 1) by positivity) hg
  refine ⟨N + 1, ?_⟩
  intro k hk tr ht
  obtain ⟨j, rfl⟩ : ∃ j, k = j + 1 := ⟨k - 1, by omega⟩
  obtain ⟨x, y, h1, h2, h3⟩ := C202_rate g ε he width q star batch hcl hq hs hfit hstar h0 j tr ht
  refine ⟨x, y, h1, h2, lt_of_le_of_lt h3 ?_⟩
  have h4 : |g| ^ (j + 1) ≤ |g| ^ N := pow_le_pow_of_le_one (abs_nonneg _) hg.le (by omega)
  have h5 : |g| ^ (j + 1) < η / (ε + 1) := lt_of_le_of_lt h4 hN
  rw [lt_div_iff₀ (by positivity)] at h5
  have h6 : 0 ≤ |g| ^ (j + 1) := pow_nonneg (abs_nonneg _) _
  nlinarith

/-- With a discount below 1 two tables of zero loss agree on the batch. -/
theorem C202_unique (g : ℚ) (hg : |g| < 1) (width : Nat) (q q' : S → List ℚ) (batch : List (Tr S Nat)) (hcl : Closed width batch)
    (hq : ∀ s, (q s).length = width) (hq' : ∀ s, (q' s).length = width) (hf : Fits .fixedTarget g q q batch)
    (hf' : Fits .fixedTarget g q' q' batch) : ∀ tr ∈ batch, (q tr.state)[tr.action]? = (q' tr.state)[tr.action]? := by
  intro tr ht
  obtain ⟨v, _, b⟩ := fits_row hf ht
  obtain ⟨v', _, b'⟩ := fits_row hf' ht
  rw [b, b']
  by_contra hne
  have hne' : rewardFunction tr.reward g v tr.terminal - rewardFunction tr.reward g v' tr.terminal ≠ 0 := fun h =>
    hne (by rw [sub_eq_zero.1 h])
  obtain ⟨K, hK⟩ := C202_converges g hg width (fun _ => q) q' batch hcl (fun _ => hq) hq' (fun _ => hf) hf' _ (abs_pos.2 hne')
  obtain ⟨x, y, h1, h2, h3⟩ := hK K (Nat.le_refl _) tr ht
  rw [b] at h1
  rw [b'] at h2
  cases h1; cases h2
  exact lt_irrefl _ h3

/-- A table of zero loss, in any mode, with an equal target network: no continuation in the batch is worth more than the action
value of its first step. -/
theorem C202_upper (mode : Mode) (g : ℚ) (hg : 0 ≤ g) (q : S → List ℚ) (batch : List (Tr S Nat)) (hf : Fits mode g q q batch)
    (init : List (Tr S Nat)) (last first : Tr S Nat) (hp : Path (init ++ [last])) (hb : ∀ t ∈ init ++ [last], t ∈ batch)
    (hfst : (init ++ [last]).head? = some first) (x y : ℚ) (hx : (q first.state)[first.action]? = some x)
    (hy : (q last.state)[last.action]? = some y) : ret g init + g ^ init.length * y ≤ x := by
  induction init generalizing first x with
  | nil =>
    simp only [List.nil_append, List.head?_cons, Option.some.injEq] at hfst
    subst hfst
    rw [hy] at hx
    cases hx
    simp [ret]
  | cons a rest ih =>
    simp only [List.cons_append, List.head?_cons, Option.some.injEq] at hfst
    subst hfst
    obtain ⟨v, hv, hxa⟩ := fits_row hf (hb a (by simp))
    obtain ⟨i, hm⟩ := nextQ_same hv
    obtain ⟨b, tl, hbt⟩ : ∃ b tl, rest ++ [last] = b :: tl := by
      cases rest with
      | nil => exact ⟨last, [], rfl⟩
      | cons b tl => exact ⟨b, tl ++ [last], rfl⟩
    have hp' : a.terminal = false ∧ a.next = b.state ∧ Path (rest ++ [last]) := by
      rw [List.cons_append, hbt] at hp
      rw [hbt]
      exact hp
    obtain ⟨w, _, hw⟩ := fits_row hf (hb b (by rw [List.cons_append, hbt]; simp))
    have hrec := ih b hp'.2.2 (fun t ht => hb t (by rw [List.cons_append]; exact List.mem_cons_of_mem _ ht)) (by rw [hbt]; rfl) _ hw
    rw [← hp'.2.1] at hw
    have hle := (rowMax_spec hm).2.1 _ (List.mem_of_getElem? hw)
    rw [hxa] at hx
    cases hx
    rw [hp'.1]
    have h1 := mul_le_mul_of_nonneg_left (le_trans hrec hle) hg
    simp only [ret, List.length_cons, rewardFunction]
    have h2 : g ^ (rest.length + 1) * y = g * (g ^ rest.length * y) := by ring
    rw [h2]
    simp
    linarith

/-- ... and a greedy continuation is worth as much. -/
theorem C202_greedy (mode : Mode) (g : ℚ) (q : S → List ℚ) (batch : List (Tr S Nat)) (hf : Fits mode g q q batch)
    (init : List (Tr S Nat)) (last first : Tr S Nat) (hp : Path (init ++ [last])) (hb : ∀ t ∈ init ++ [last], t ∈ batch)
    (hgr : Greedy q (init ++ [last])) (hfst : (init ++ [last]).head? = some first) (x y : ℚ)
    (hx : (q first.state)[first.action]? = some x) (hy : (q last.state)[last.action]? = some y) :
    ret g init + g ^ init.length * y = x := by
  induction init generalizing first x with
  | nil =>
    simp only [List.nil_append, List.head?_cons, Option.some.injEq] at hfst
    subst hfst
    rw [hy] at hx
    cases hx
    simp [ret]
  | cons a rest ih =>
    simp only [List.cons_append, List.head?_cons, Option.some.injEq] at hfst
    subst hfst
    obtain ⟨v, hv, hxa⟩ := fits_row hf (hb a (by simp))
    obtain ⟨i, hm⟩ := nextQ_same hv
    obtain ⟨b, tl, hbt⟩ : ∃ b tl, rest ++ [last] = b :: tl := by
      cases rest with
      | nil => exact ⟨last, [], rfl⟩
      | cons b tl => exact ⟨b, tl ++ [last], rfl⟩
    have hp' : a.terminal = false ∧ a.next = b.state ∧ Path (rest ++ [last]) := by
      rw [List.cons_append, hbt] at hp
      rw [hbt]
      exact hp
    have hgr' : ∀ t ∈ rest ++ [last], ∃ v, (q t.state)[t.action]? = some v ∧ ∀ x ∈ q t.state, x ≤ v := by
      intro t ht
      exact hgr t (by simpa using ht)
    obtain ⟨w, hw, hmax⟩ := hgr' b (by rw [hbt]; simp)
    have hrec := ih b hp'.2.2 (fun t ht => hb t (by rw [List.cons_append]; exact List.mem_cons_of_mem _ ht))
      (fun t ht => hgr' t (List.mem_of_mem_tail ht)) (by rw [hbt]; rfl) _ hw
    rw [← hp'.2.1] at hw hmax
    have hle := (rowMax_spec hm).2.1 _ (List.mem_of_getElem? hw)
    have hge := hmax _ (List.mem_of_getElem? (rowMax_spec hm).1)
    have hwv : w = v := le_antisymm hle hge
    rw [hxa] at hx
    cases hx
    rw [hp'.1, ← hwv, ← hrec]
    simp only [ret, List.length_cons, rewardFunction]
    simp
    ring

/-- No episode in the batch that ends has a larger return than the action value of its first step. -/
theorem C202_returns (mode : Mode) (g : ℚ) (hg : 0 ≤ g) (q : S → List ℚ) (batch : List (Tr S Nat)) (hf : Fits mode g q q batch)
    (init : List (Tr S Nat)) (last first : Tr S Nat) (hp : Path (init ++ [last])) (hb : ∀ t ∈ init ++ [last], t ∈ batch)
    (hend : last.terminal = true) (hfst : (init ++ [last]).head? = some first) (x : ℚ) (hx : (q first.state)[first.action]? = some x) :
    ret g (init ++ [last]) ≤ x ∧ (Greedy q (init ++ [last]) → ret g (init ++ [last]) = x) := by
  obtain ⟨v, _, hy⟩ := fits_row hf (hb last (by simp))
  have hr : ret g (init ++ [last]) = ret g init + g ^ init.length * rewardFunction last.reward g v last.terminal := by
    rw [hend]
    clear hp hb hfst hx hy
    induction init with
    | nil => simp [ret, rewardFunction]
    | cons a rest ih =>
      simp only [List.cons_append, ret, List.length_cons, ih]
      ring
  rw [hr]
  exact ⟨C202_upper mode g hg q batch hf init last first hp hb hfst x _ hx hy,
    fun hgr => C202_greedy mode g q batch hf init last first hp hb hgr hfst x _ hx hy⟩

/-- Greedy continuations exist in a closed batch: of any length, unless the episode ends before. -/
theorem C202_attained (mode : Mode) (g : ℚ) (width : Nat) (q : S → List ℚ) (batch : List (Tr S Nat)) (hf : Fits mode g q q batch)
    (hcl : Closed width batch) (hq : ∀ s, (q s).length = width) (n : Nat) (first : Tr S Nat) (h : first ∈ batch) :
    ∃ init last, Path (init ++ [last]) ∧ (∀ t ∈ init ++ [last], t ∈ batch) ∧ Greedy q (init ++ [last]) ∧
      (init ++ [last]).head? = some first ∧ (init.length = n ∨ init.length < n ∧ last.terminal = true) := by
  induction n generalizing first with
  | zero => exact ⟨[], first, trivial, by simpa using h, by simp [Greedy], rfl, Or.inl rfl⟩
  | succ n ih =>
    cases ht : first.terminal with
    | true => exact ⟨[], first, trivial, by simpa using h, by simp [Greedy], rfl, Or.inr ⟨Nat.succ_pos _, ht⟩⟩
    | false =>
      obtain ⟨v, hv, _⟩ := fits_row hf h
      obtain ⟨i, hm⟩ := nextQ_same hv
      obtain ⟨m1, m2, _⟩ := rowMax_spec hm
      have hi : i < width := by rw [← hq first.next]; exact (List.getElem?_eq_some_iff.1 m1).1
      obtain ⟨b, hb, e1, e2⟩ := hcl first h ht i hi
      obtain ⟨init, last, p1, p2, p3, p4, p5⟩ := ih b hb
      obtain ⟨tl, htl⟩ : ∃ tl, init ++ [last] = b :: tl := by
        cases hc : init ++ [last] with
        | nil => simp at hc
        | cons c tl => rw [hc] at p4; simp at p4; exact ⟨tl, by rw [p4]⟩
      refine ⟨first :: init, last, ?_, ?_, ?_, rfl, ?_⟩
      · rw [List.cons_append, htl]
        rw [htl] at p1
        exact ⟨ht, e1.symm, p1⟩
      · intro t ht'
        rw [List.cons_append] at ht'
        rcases List.mem_cons.1 ht' with rfl | ht'
        · exact h
        · exact p2 t ht'
      · intro t ht'
        rw [List.cons_append, List.tail_cons, htl] at ht'
        rcases List.mem_cons.1 ht' with rfl | ht'
        · exact ⟨v, by rw [e1, e2]; exact m1, by rw [e1]; exact m2⟩
        · exact p3 t (by rw [htl]; exact ht')
      · rcases p5 with p5 | ⟨p5, p6⟩
        · left; simp [p5]
        · right; exact ⟨by simp; omega, p6⟩

/-- The targets of DDPG, TD3 and SAC move by at most `|γ| ε` when the target critics move by at most `ε`. -/
theorem C202_actor_critic {A : Type} (n n' : Nets S A) (noise : A → A) (sample : S → A × ℚ) (alpha g ε : ℚ) (he : 0 ≤ ε) (tr : Tr S A)
    (ha : n.actorT = n'.actorT) (h1 : ∀ a, |n.criticT tr.next a - n'.criticT tr.next a| ≤ ε)
    (h2 : ∀ a, |n.critic2T tr.next a - n'.critic2T tr.next a| ≤ ε) :
    |ddpgTarget n g tr - ddpgTarget n' g tr| ≤ |g| * ε ∧ |td3Target n noise g tr - td3Target n' noise g tr| ≤ |g| * ε ∧
      |sacTarget n sample alpha g tr - sacTarget n' sample alpha g tr| ≤ |g| * ε := by
  have hmin : ∀ a, |min (n.criticT tr.next a) (n.critic2T tr.next a) - min (n'.criticT tr.next a) (n'.critic2T tr.next a)| ≤ ε := by
    intro a
    have a1 := abs_le.1 (h1 a)
    have a2 := abs_le.1 (h2 a)
    rw [abs_le]
    rcases min_cases (n.criticT tr.next a) (n.critic2T tr.next a) with ⟨e, f⟩ | ⟨e, f⟩ <;>
      rcases min_cases (n'.criticT tr.next a) (n'.critic2T tr.next a) with ⟨e', f'⟩ | ⟨e', f'⟩ <;> rw [e, e'] <;> constructor <;> linarith
  refine ⟨?_, ?_, ?_⟩
  · unfold ddpgTarget
    rw [ha]
    exact rewardFunction_close _ _ _ _ _ _ he fun _ => h1 _
  · unfold td3Target
    simp only [ha]
    exact rewardFunction_close _ _ _ _ _ _ he fun _ => hmin _
  · unfold sacTarget
    refine rewardFunction_close _ _ _ _ _ _ he fun _ => ?_
    have := hmin (sample tr.next).1
    rw [show ∀ a b c : ℚ, a - c - (b - c) = a - b from fun a b c => by ring]
    exact this

/-! ### A small world: in state 0 action 0 earns 1 and ends, action 1 earns 0 and goes on to state 1, where both actions end, one
of them with 4. -/

def sampleBatch : List (Tr Nat Nat) :=
  [⟨0, 0, 1, 1, true⟩, ⟨0, 1, 0, 1, false⟩, ⟨1, 0, 4, 0, true⟩, ⟨1, 1, 2, 0, true⟩]

def sampleStar (s : Nat) : List ℚ := if s = 0 then [1, 2] else [4, 2]

def sampleIter : Nat → Nat → List ℚ
  | 0, _ => [0, 0]
  | 1, s => if s = 0 then [1, 0] else [4, 2]
  | _ + 2, s => sampleStar s

example : Fits .fixedTarget (1 / 2) sampleStar sampleStar sampleBatch := ⟨[(1, 1), (2, 2), (4, 4), (2, 2)], by decide +kernel, by decide +kernel⟩

example : Fits .double (1 / 2) sampleStar sampleStar sampleBatch := ⟨[(1, 1), (2, 2), (4, 4), (2, 2)], by decide +kernel, by decide +kernel⟩

example : Closed 2 sampleBatch := by
  unfold Closed
  decide +kernel

example : ∀ k, Fits .fixedTarget (1 / 2) (sampleIter (k + 1)) (sampleIter k) sampleBatch
  | 0 => ⟨[(1, 1), (0, 0), (4, 4), (2, 2)], by decide +kernel, by decide +kernel⟩
  | 1 => ⟨[(1, 1), (2, 2), (4, 4), (2, 2)], by decide +kernel, by decide +kernel⟩
  | _ + 2 => ⟨[(1, 1), (2, 2), (4, 4), (2, 2)],
    (by decide +kernel : dqnPairs .fixedTarget (1 / 2) sampleStar sampleStar sampleBatch = _), by decide +kernel⟩

example : Path ([⟨0, 1, 0, 1, false⟩, ⟨1, 0, 4, 0, true⟩] : List (Tr Nat Nat)) ∧
    ret (1 / 2) ([⟨0, 1, 0, 1, false⟩, ⟨1, 0, 4, 0, true⟩] : List (Tr Nat Nat)) = 2 := ⟨⟨rfl, rfl, trivial⟩, by decide +kernel⟩

end Machin.Algo
