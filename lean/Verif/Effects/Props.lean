import Verif.Effects.Lemmas

/-!
# Properties of the effects of `update`

C177: optimizers read from a framework, wrapped or replaced one by one and assigned again are those that `update` steps.
**Violated** by GAIL and MADDPG.

C178: every network of a framework is one of its top models. **Violated** by MADDPG.

C179: over any history of updates every picture is drawn at most once. **Violated** by MADDPG.

C180: a network that was put into training mode by `update` is in evaluation mode when it returns. **Violated** by TRPO.

C181: at every backward pass the network that is trained is in training mode. **Violated** by MADDPG with an ensemble.
-/

namespace Machin.Effects

/-- Flags of an ordinary update. -/
def plain : Flags :=
  { value := true, policy := true, discriminator := true, alpha := true, visualize := true, visualizeInner := true,
    zeroGrad := false, manager := true, empty := false, actorTimes := 2, criticTimes := 3, discriminatorTimes := 1,
    agents := 2, ensemble := 2 }

/-- All optimizers different, as natural numbers. -/
def distinct : Store
  | .actor => 0 | .critic => 1 | .critic2 => 2 | .alpha => 3 | .qnet => 4 | .discriminator => 5 | .innerActor => 0
  | .innerCritic => 1 | .actorOf a p => 8 + 2 * (a * 10 + p) | .criticOf a => 9 + 2 * a

/-! ## C177 -/

/-- The full claim C177: assigning the optimizers, each replaced by another one, has `update` step the replacements. -/
def C177_full : Prop :=
  ∀ (alg : Alg) (f : Flags) (o : Store) (σ : Nat → Nat) (tr : List (Nat × Eff)), Built alg o → Interleaving (tasks alg f) tr →
    stepped (setOpts alg f o ((getOpts alg f o).map σ)) (tr.map (·.2)) = (stepped o (tr.map (·.2))).map σ

/-- **C177 is violated** by GAIL: the framework inside goes on with the old optimizers of actor and critic. -/
theorem C177_violated_gail :
    stepped (setOpts (.gail false) plain distinct ((getOpts (.gail false) plain distinct).map (· + 100)))
      (gailProg false plain) = [105, 0, 0, 1, 1, 1] := by decide

theorem C177_violated : ¬ C177_full := by
  intro h
  have := h (.gail false) plain distinct (· + 100) _ (by simp [Built, distinct]) (one_run (gailProg false plain))
  rw [List.map_map] at this
  revert this; decide

/-- **C177 is violated** by MADDPG: the getter begins with the critics, the setter with the actors. With one agent and one
sub-policy the critic is stepped by the optimizer of the actor and the other way round. -/
theorem C177_violated_maddpg :
    let f := { plain with agents := 1, ensemble := 1 }
    getOpts .maddpg f distinct = [9, 8] ∧ stepped distinct (maddpgTask f 0 0) = [9, 8] ∧
      stepped (setOpts .maddpg f distinct ((getOpts .maddpg f distinct).map id)) (maddpgTask f 0 0) = [8, 9] := by decide

/-- C177, partial: for all frameworks but GAIL and MADDPG. -/
theorem C177_partial (alg : Alg) (f : Flags) (o : Store) (σ : Nat → Nat) (tr : List (Nat × Eff)) (hg : ∀ b, alg ≠ .gail b)
    (hm : alg ≠ .maddpg) (h : Interleaving (tasks alg f) tr) :
    stepped (setOpts alg f o ((getOpts alg f o).map σ)) (tr.map (·.2)) = (stepped o (tr.map (·.2))).map σ := by
  refine stepped_map _ _ _ _ fun s hs => ?_
  obtain ⟨l, hl, hs⟩ := mem_run h hs
  have hr := step_reads alg f hg l hl s hs
  have hw : writes alg f = reads alg f := by cases alg <;> first | rfl | exact absurd rfl hm
  simp only [setOpts, getOpts, hw, List.map_map]
  exact assign_map (σ ∘ o) _ o s hr

/-- C177, partial: for MADDPG a list in the order of the setter, actors first, takes effect. Missing: the order in which
`optimizers` lists them. -/
theorem C177_order_partial (f : Flags) (o : Store) (σ : Nat → Nat) (tr : List (Nat × Eff)) (h : Interleaving (tasks .maddpg f) tr) :
    stepped (setOpts .maddpg f o
      (((pairs f).map fun x => σ (o (.actorOf x.1 x.2))) ++ (List.range f.agents).map fun a => σ (o (.criticOf a))))
      (tr.map (·.2)) = (stepped o (tr.map (·.2))).map σ := by
  refine stepped_map _ _ _ _ fun s hs => ?_
  obtain ⟨l, hl, hs⟩ := mem_run h hs
  have hr := step_reads .maddpg f (by simp) l hl s hs
  have hw : s ∈ writes .maddpg f := by simpa [reads, writes, or_comm] using hr
  have := assign_map (σ ∘ o) _ o s hw
  simpa [setOpts, writes, List.map_append, List.map_map, Function.comp_def] using this

/-- C177, partial: with GAIL the optimizer of the discriminator is replaced; the others stay. -/
theorem C177_gail_partial (b : Bool) (f : Flags) (o : Store) (σ : Nat → Nat) (tr : List (Nat × Eff)) (hb : Built (.gail b) o)
    (h : Interleaving (tasks (.gail b) f) tr) :
    stepped (setOpts (.gail b) f o ((getOpts (.gail b) f o).map σ)) (tr.map (·.2)) =
      (stepped o (tr.map (·.2))).map fun x => if x = o .discriminator then σ x else x := by
  refine stepped_map _ _ _ _ fun s hs => ?_
  obtain ⟨l, hl, hs⟩ := mem_run h hs
  have hr := step_gail b f l hl s hs
  obtain ⟨h1, h2, h3, h4, h5⟩ := hb
  simp only [setOpts, getOpts, writes, reads, List.map, assign]
  rcases hr with rfl | rfl | rfl
  · simp
  · simp [← h1, h4]
  · simp [← h2, h5]

/-- C177, partial: whatever `update` steps is listed in `optimizers`, for all frameworks. -/
theorem C177_listed_partial (alg : Alg) (f : Flags) (o : Store) (hb : Built alg o) (tr : List (Nat × Eff))
    (h : Interleaving (tasks alg f) tr) (x : Nat) (hx : x ∈ stepped o (tr.map (·.2))) : x ∈ getOpts alg f o := by
  rw [mem_stepped] at hx
  obtain ⟨s, hs, rfl⟩ := hx
  obtain ⟨l, hl, hs⟩ := mem_run h hs
  by_cases hg : ∃ b, alg = .gail b
  · obtain ⟨b, rfl⟩ := hg
    obtain ⟨h1, h2, -⟩ := hb
    rcases step_gail b f l hl s hs with rfl | rfl | rfl
    · simp [getOpts, reads]
    · simp [getOpts, reads, ← h1]
    · simp [getOpts, reads, ← h2]
  · exact List.mem_map.mpr ⟨s, step_reads alg f (fun b hb => hg ⟨b, hb⟩) l hl s hs, rfl⟩

/-- TD3 with wrapped optimizers steps the wrappers. -/
example : stepped (setOpts .td3 plain distinct ((getOpts .td3 plain distinct).map (· + 100))) (td3Prog plain) = [101, 102, 100] := by
  decide

/-- Hypotheses met: an update of TD3 is an interleaving of its task. -/
example : Interleaving (tasks .td3 plain) ((td3Prog plain).map fun e => (0, e)) := one_run _

/-! ## C178 -/

/-- The full claim C178. -/
def C178_full : Prop := ∀ (alg : Alg) (f : Flags) (n : Net), n ∈ nets alg f → n ∈ topNets alg f

/-- **C178 is violated** by MADDPG: its top models are the target networks; `enable_multiprocessing` leaves the networks
that are trained where they are. -/
theorem C178_violated : ¬ C178_full := by
  intro h
  have := h .maddpg plain (.criticOf 0) (by decide)
  revert this; decide

/-- C178, partial: for all other frameworks the top models are exactly the networks. -/
theorem C178_partial (alg : Alg) (f : Flags) (hm : alg ≠ .maddpg) (n : Net) : n ∈ topNets alg f ↔ n ∈ nets alg f := by
  cases alg <;> first | exact absurd rfl hm | exact Iff.rfl

/-- C178, partial: those of MADDPG are exactly the target networks, one for each agent and each actor. -/
theorem C178_maddpg_partial (f : Flags) (n : Net) :
    n ∈ topNets .maddpg f ↔
      (∃ a p, a < f.agents ∧ p < f.ensemble ∧ n = .actorTargetOf a p) ∨ ∃ a, a < f.agents ∧ n = .criticTargetOf a := by
  simp only [topNets, List.mem_append, List.mem_map, mem_pairs, List.mem_range]
  constructor
  · rintro (⟨⟨a, p⟩, ⟨h1, h2⟩, rfl⟩ | ⟨a, h1, rfl⟩)
    · exact .inl ⟨a, p, h1, h2, rfl⟩
    · exact .inr ⟨a, h1, rfl⟩
  · rintro (⟨a, p, h1, h2, rfl⟩ | ⟨a, h1, rfl⟩)
    · exact .inl ⟨(a, p), ⟨h1, h2⟩, rfl⟩
    · exact .inr ⟨a, h1, rfl⟩

/-- C178, partial: what `update` puts into training mode are networks of the framework, so with all frameworks but MADDPG they
are top models. -/
theorem C178_trained_partial (alg : Alg) (f : Flags) (l : List Eff) (hl : l ∈ tasks alg f) (n : Net) (hn : .train n ∈ l) :
    n ∈ nets alg f := train_nets alg f l hl n hn

example : Net.critic2Target ∈ topNets .td3 plain := by decide

/-! ## C179 -/

/-- The effects of a history of updates, with the flags of each. -/
def History (alg : Alg) (h : List (Flags × List (Nat × Eff))) : Prop := ∀ x ∈ h, Interleaving (tasks alg x.1) x.2

/-- All effects of a history. -/
def allEff (h : List (Flags × List (Nat × Eff))) : List Eff := h.flatMap fun x => x.2.map (·.2)

/-- The full claim C179: no picture is drawn a second time. -/
def C179_full : Prop :=
  ∀ (alg : Alg) (h : List (Flags × List (Nat × Eff))), History alg h → (draws [] (allEff h)).2.Nodup

/-- **C179 is violated** by MADDPG, in a second update: `has_visualized` is never set. -/
theorem C179_violated : ¬ C179_full := by
  intro h
  let f := { plain with agents := 1, ensemble := 1 }
  have h1 : Interleaving (tasks .maddpg f) ((maddpgTask f 0 0).map fun e => (0, e)) := one_run _
  have := h .maddpg [(f, (maddpgTask f 0 0).map fun e => (0, e)), (f, (maddpgTask f 0 0).map fun e => (0, e))] (by
    intro x hx
    simp only [List.mem_cons, List.not_mem_nil, or_false, or_self] at hx
    subst hx; exact h1)
  revert this; decide

/-- **C179 is violated** by MADDPG, with an ensemble even in one update: every sub-policy draws the critic of its agent. -/
theorem C179_violated_first :
    ¬ (draws [] ((tasks .maddpg { plain with agents := 1 }).flatten)).2.Nodup := by decide

/-- C179, partial: for all frameworks but MADDPG; and whatever is to be drawn is drawn. -/
theorem C179_partial (alg : Alg) (hm : alg ≠ .maddpg) (h : List (Flags × List (Nat × Eff))) (hh : History alg h) :
    (draws [] (allEff h)).2.Nodup ∧ ∀ n, .draw n ∈ allEff h ↔ n ∈ (draws [] (allEff h)).2 := by
  have h0 : ∀ n, .drawAlways n ∉ allEff h := by
    intro n hn
    simp only [allEff, List.mem_flatMap] at hn
    obtain ⟨x, hx, hn⟩ := hn
    obtain ⟨l, hl, hn⟩ := mem_run (hh x hx) hn
    exact no_drawAlways alg x.1 hm l hl n hn
  refine ⟨(draws_spec _ h0 []).1, fun n => ⟨fun hn => ?_, fun hn => ?_⟩⟩
  · rcases draws_mem _ [] n hn with h' | h'
    · simp at h'
    · exact h'
  · exact mem_draws _ h0 [] n hn

/-- C179, partial: the networks an update of each framework asks to be drawn; the second critics of TD3 and SAC, and the
networks of IMPALA, are not among them. -/
theorem C179_asked_partial (alg : Alg) (f : Flags) (hm : alg ≠ .maddpg) (n : Net) :
    (∃ l ∈ tasks alg f, .draw n ∈ l) ↔ n ∈ asked alg f := draw_asked alg f hm n

/-- Three updates of SAC draw two pictures. -/
example : (draws [] (sacProg plain ++ sacProg plain ++ sacProg plain)).2 = [.critic, .actor] := by decide

/-! ## C180 -/

/-- The full claim C180. -/
def C180_full : Prop :=
  ∀ (alg : Alg) (f : Flags) (tr : List (Nat × Eff)) (n : Net) (m : Bool), Interleaving (tasks alg f) tr →
    .train n ∈ tr.map (·.2) → mode n m (tr.map (·.2)) = false

/-- **C180 is violated** by TRPO: with a zero gradient it returns at once, with actor and critic in training mode and a full
buffer. -/
theorem C180_violated : ¬ C180_full := by
  intro h
  have := h .trpo { plain with zeroGrad := true } _ .actor false (one_run (trpoProg .critic true { plain with zeroGrad := true }))
    (by decide)
  revert this; decide

theorem C180_violated_buffer :
    mode .critic false (trpoProg .critic true { plain with zeroGrad := true }) = true ∧
      Eff.clear ∉ trpoProg .critic true { plain with zeroGrad := true } := by decide

/-- C180, partial: for all frameworks, and all interleavings of the tasks of MADDPG. Missing: TRPO with a zero gradient. -/
theorem C180_partial (alg : Alg) (f : Flags) (tr : List (Nat × Eff)) (n : Net) (m : Bool)
    (hz : alg = .trpo → f.policy = true → f.zeroGrad = false) (h : Interleaving (tasks alg f) tr)
    (hn : .train n ∈ tr.map (·.2)) : mode n m (tr.map (·.2)) = false := by
  refine mode_run n tr (fun k hk => ?_) ?_ m
  · rw [own_task h k] at hk ⊢
    obtain ⟨e, he, ht⟩ := hk
    by_cases hlt : k < (tasks alg f).length
    · rw [List.getD_eq_getElem?_getD, List.getElem?_eq_getElem hlt, Option.getD_some] at he ⊢
      exact ends_eval alg f hz _ (List.getElem_mem hlt) n e he ht
    · rw [List.getD_eq_getElem?_getD, List.getElem?_eq_none (by omega)] at he
      simp at he
  · simp only [List.mem_map] at hn
    obtain ⟨x, hx, he⟩ := hn
    exact ⟨x, hx, by rw [he]; simp [touches]⟩

/-- C180, partial: a network that `update` does not train keeps its mode. -/
theorem C180_other_partial (alg : Alg) (f : Flags) (tr : List (Nat × Eff)) (n : Net) (m : Bool)
    (h : Interleaving (tasks alg f) tr) (hn : .train n ∉ tr.map (·.2)) : mode n m (tr.map (·.2)) = m := by
  refine mode_quiet n _ (fun e he => ?_) m
  obtain ⟨x, hx, rfl⟩ := List.mem_map.mp he
  cases ht : touches n x.2 with
  | false => rfl
  | true =>
    exfalso
    refine hn ?_
    have hx1 := h.1 x hx
    have ho := own_task h x.1
    rw [List.getD_eq_getElem?_getD, List.getElem?_eq_getElem hx1, Option.getD_some] at ho
    have hm : x.2 ∈ own x.1 tr := mem_own hx
    rw [ho] at hm
    have := touch_train alg f _ (List.getElem_mem hx1) n x.2 hm ht
    rw [← ho] at this
    exact List.mem_map.mpr ⟨_, of_mem_own this, rfl⟩

/-- C180, partial: GAIL puts the networks of its TRPO into evaluation mode itself. -/
theorem C180_gail_partial (f : Flags) (n : Net) (hn : n = .actor ∨ n = .critic ∨ n = .discriminator) (m : Bool) :
    mode n m (gailProg true f) = false := by
  simp only [gailProg, mode_append]
  rcases hn with rfl | rfl | rfl <;> simp [mode]

example : mode .critic false (a2cProg .actor .critic true plain) = false ∧
    Eff.train .critic ∈ a2cProg .actor .critic true plain := by decide

/-! ## C181 -/

/-- The full claim C181. -/
def C181_full : Prop :=
  ∀ (alg : Alg) (f : Flags) (tr : List (Nat × Eff)), Interleaving (tasks alg f) tr →
    ∀ (pre post : List Eff) (n : Net) (m : Bool), tr.map (·.2) = pre ++ .backward n :: post → mode n m pre = true

/-- One agent with two sub-policies: the second waits before its backward pass, the first runs to its end. -/
def crossed : List (Nat × Eff) :=
  let f := { plain with agents := 1, visualize := false }
  ((maddpgTask f 0 1).take 2).map (fun e => (1, e)) ++ (maddpgTask f 0 0).map (fun e => (0, e)) ++
    ((maddpgTask f 0 1).drop 2).map fun e => (1, e)

theorem crossed_run : Interleaving (tasks .maddpg { plain with agents := 1, visualize := false }) crossed := by
  refine ⟨by decide, fun k => ?_⟩
  rcases k with _ | _ | k
  · decide
  · decide
  · rw [List.getD_eq_getElem?_getD, List.getElem?_eq_none (by
      have : (tasks .maddpg { plain with agents := 1, visualize := false }).length = 2 := by decide
      omega)]
    simp only [Option.getD_none, List.map_eq_nil_iff, List.filter_eq_nil_iff]
    intro x hx
    have : x.1 < 2 := by revert x; decide
    simp only [beq_iff_eq]; omega

/-- **C181 is violated** by MADDPG with sub-policies: the critic of an agent is shared by the tasks of its sub-policies, and the
first to end puts it into evaluation mode under the others. -/
theorem C181_violated : ¬ C181_full := by
  intro h
  have := h .maddpg _ _ crossed_run ((crossed.take 10).map (·.2)) ((crossed.drop 11).map (·.2)) (.criticOf 0) true (by decide)
  revert this; decide

/-- C181, partial: for all frameworks but MADDPG. -/
theorem C181_partial (alg : Alg) (f : Flags) (hm : alg ≠ .maddpg) (tr : List (Nat × Eff)) (h : Interleaving (tasks alg f) tr)
    (pre post : List Eff) (n : Net) (m : Bool) (he : tr.map (·.2) = pre ++ .backward n :: post) : mode n m pre = true := by
  obtain ⟨l, hl⟩ := one_task alg f hm
  have hs := task_safe alg f l (by simp [hl]) fun _ => m
  rw [hl] at h
  rw [run_one h] at he
  exact safe_spec l _ hs pre post n he

/-- C181, partial: for MADDPG without sub-policies, and for its actors always, in all interleavings. Missing: the critics of
agents with sub-policies. -/
theorem C181_maddpg_partial (f : Flags) (tr : List (Nat × Eff)) (h : Interleaving (tasks .maddpg f) tr)
    (pre post : List Eff) (n : Net) (m : Bool) (he : tr.map (·.2) = pre ++ .backward n :: post)
    (hn : f.ensemble ≤ 1 ∨ ∃ a p, n = .actorOf a p) : mode n m pre = true := by
  obtain ⟨pre', x, post', rfl, rfl, hx, rfl⟩ := split_map he
  have hk := h.1 x (by simp)
  have hsingle : ∀ y ∈ pre', touches n y.2 = true → y.1 = x.1 := by
    intro y hy ht
    have hy1 := h.1 y (by simp [hy])
    have h1 := own_task h y.1
    have h2 := own_task h x.1
    rw [List.getD_eq_getElem?_getD, List.getElem?_eq_getElem hy1, Option.getD_some] at h1
    rw [List.getD_eq_getElem?_getD, List.getElem?_eq_getElem hk, Option.getD_some] at h2
    refine one_owner f n hn y.1 x.1 hy1 hk y.2 (.backward n) ?_ ht ?_
    · rw [← h1]; exact mem_own (by simp [hy])
    · rw [← h2, ← hx]; exact mem_own (by simp)
  rw [mode_single n x.1 pre' hsingle]
  have h2 := own_task h x.1
  rw [List.getD_eq_getElem?_getD, List.getElem?_eq_getElem hk, Option.getD_some, own_append] at h2
  have h3 : own x.1 (x :: post') = .backward n :: own x.1 post' := by simp [own, hx]
  rw [h3] at h2
  exact safe_spec _ (fun _ => m) (task_safe .maddpg f _ (List.getElem_mem hk) _) _ _ n h2.symm

example : mode .critic2 false ((td3Prog plain).take 6) = true ∧ (td3Prog plain)[6]? = some (.backward .critic2) := by decide

end Machin.Effects
