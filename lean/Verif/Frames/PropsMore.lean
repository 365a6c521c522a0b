import Verif.Frames.Lemmas4

/-!
# C166: a wrong number of models is refused. C167: models are on their device. C168: batch numbers of launched frameworks. C169: roles
-/

namespace Machin.Frames

open Machin

/-- A framework whose models are followed by keywords refuses any other number of models. -/
theorem C166_wrong_number {V : Type} (al : Algo) (hal : al ∈ keywordStyle) (env : Env V) (n : Nat) (hn : n ≠ arity al) (c : Key → Option V)
    (hc : Complete al c) : init al env n c = .error .type := by
  rcases Nat.lt_or_gt_of_ne hn with h | h
  · -- the slot `n` stays empty
    have h1 := hc.1
    have h2 := hc.2
    simp only [keywordStyle, List.mem_cons, List.not_mem_nil, or_false] at hal
    rcases hal with rfl | rfl | rfl | rfl | rfl | rfl | rfl | rfl | rfl | rfl | rfl | rfl
    all_goals
      refine plain_mismatch _ _ _ n c (fun k hk => h1 k ?_) (arity _ - 1) _ rfl (Or.inr ⟨Nat.le_sub_one_of_lt h, ?_, ?_, ?_, h2 _ ?_⟩)
      · revert k hk; decide
      all_goals decide
  · have h1 := hc.1
    simp only [keywordStyle, List.mem_cons, List.not_mem_nil, or_false] at hal
    rcases hal with rfl | rfl | rfl | rfl | rfl | rfl | rfl | rfl | rfl | rfl | rfl | rfl
    all_goals
      refine plain_mismatch _ _ _ n c (fun k hk => h1 k ?_) (arity _) _ rfl (Or.inl ⟨h, ?_⟩)
      · revert k hk; decide
      · rfl

/-- The distributed frameworks with roles refuse too few models. -/
theorem C166_too_few {V : Type} (al : Algo) (hal : al ∈ withRoles) (env : Env V) (n : Nat) (hn : n < arity al) (c : Key → Option V)
    (hc : Complete al c) : init al env n c = .error .type := by
  have h1 := hc.1
  have h2 := hc.2
  simp only [withRoles, List.mem_cons, List.not_mem_nil, or_false] at hal
  rcases hal with rfl | rfl | rfl
  · refine learners_few _ _ _ _ _ env n c (fun k hk => h1 k ?_) 5 .modelServer rfl (Nat.add_le_add_right (Nat.succ_le_of_lt hn) 3) (by decide)
      (h2 _ (by decide))
    revert k hk; decide
  · refine learners_few _ _ _ _ _ env n c (fun k hk => h1 k ?_) 7 .modelServer rfl (Nat.add_le_add_right (Nat.succ_le_of_lt hn) 3) (by decide)
      (h2 _ (by decide))
    revert k hk; decide
  · refine learners_few _ _ _ _ _ env n c (fun k hk => h1 k ?_) 5 .modelServer rfl (Nat.add_le_add_right (Nat.succ_le_of_lt hn) 3) (by decide)
      (h2 _ (by decide))
    revert k hk; decide

/-- GAIL takes the first model and ignores the others, without a model it fails. -/
theorem C166_gail {V : Type} (env : Env V) (n : Nat) (c : Key → Option V) : init .gail env (n + 1) c = init .gail env 1 c := by
  rfl

example : Algo.td3 ∈ keywordStyle ∧ 4 ≠ arity .td3 := by decide

example : Algo.impala ∈ withRoles ∧ 1 < arity .impala := by decide

/-- All models are on `model_device`. -/
def C167_full : Prop :=
  ∀ (V : Type) (al : Algo) (env : Env V) (n : Nat) (c : Key → Option V) (fr : Frame V), init al env n c = .ok fr → AllMoved fr

/-- All models of all frameworks but GAIL are on `model_device`. -/
theorem C167_partial {V : Type} (al : Algo) (hal : al ≠ .gail) (env : Env V) (n : Nat) (c : Key → Option V) (fr : Frame V)
    (h : init al env n c = .ok fr) : AllMoved fr := by
  intro x hx i m a k moved ddp he
  have := init_moved al hal env n c fr h x hx
  rw [he] at this
  exact this

/-- The discriminator of GAIL stays where it was built. -/
theorem C167_violated : ¬ C167_full := by
  intro h
  have := h Unit .gail ⟨0, fun _ => 0, fun _ => some true, fun _ => false⟩ 1 (fun k => if k ∈ Algo.gail.keys then some () else none) _ rfl
    (.discriminator, .model 0 () () () false false) (by decide +kernel) 0 () () () false false rfl
  cases this

example : ∃ fr, init .dqn ⟨0, fun _ => 0, fun _ => some true, fun _ => false⟩ 2 (fun k => if k ∈ Algo.dqn.keys then some () else none) = .ok fr ∧
    fr.attrs.lookup .qnetTarget = some (.model 1 () () () true false) :=
  ⟨_, rfl, by decide +kernel⟩

/-- A framework with a generated configuration that runs in several processes can be launched. -/
def C168_full : Prop := ∀ (al : Algo) (role : Option Role), al ∈ distributed → ∃ b, launchBatch al role = .ok b

/-- Learners load one batch, samplers ten, if the framework has roles. -/
theorem C168_partial (al : Algo) (hal : al ∈ withRoles) :
    launchBatch al (some .learner) = .ok 1 ∧ launchBatch al (some .sampler) = .ok 10 ∧ al ∈ distributed := by
  simp only [withRoles, List.mem_cons, List.not_mem_nil, or_false] at hal
  rcases hal with rfl | rfl | rfl <;> decide

/-- The generated configurations of A3C and ARS have no `batch_num`. -/
theorem C168_violated : ¬ C168_full := by
  intro h
  obtain ⟨b, hb⟩ := h .a3c none (by decide)
  cases hb

theorem C168_violated_ars : launchBatch .ars none = .error .key ∧ Algo.ars ∈ distributed := by decide

/-- All distributed frameworks without roles fail. -/
theorem C168_violated_all (al : Algo) (hal : al ∈ distributed) (hr : al ∉ withRoles) (role : Option Role) : launchBatch al role = .error .key := by
  revert hal hr
  cases al <;> first | (intro _ _; rfl) | (intro h h'; exact absurd (by decide) h')

example : Algo.impala ∈ withRoles := by decide

/-- Exactly the processes whose rank is below the configured number are learners; they wrap their models and keep `update`, the others are
samplers and have `update` disabled. -/
theorem C169_roles {V : Type} (al : Algo) (hal : al ∈ withRoles) (env : Env V) (n : Nat) (c : Key → Option V) (v : V)
    (hv : c .learnerProcessNumber = some v) (fr : Frame V) (h : init al env n c = .ok fr) :
    (env.rank < env.number v → fr.role = some .learner ∧ fr.updates = true) ∧
    (env.number v ≤ env.rank → fr.role = some .sampler ∧ fr.updates = false) := by
  have key : ∀ ls gn gm u, initLearners ls gn gm u env n c = .ok fr →
      fr.role = some (if env.rank ≥ env.number v then .sampler else .learner) ∧ fr.updates = !decide (env.rank ≥ env.number v) := by
    intro ls gn gm u h
    unfold initLearners at h
    obtain ⟨g, _, h⟩ := bind_ok h
    obtain ⟨gmv, _, h⟩ := bind_ok h
    obtain ⟨m, _, h⟩ := bind_ok h
    obtain ⟨a, _, h⟩ := bind_ok h
    obtain ⟨k, _, h⟩ := bind_ok h
    obtain ⟨lp, hlp, h⟩ := bind_ok h
    obtain ⟨o, _, h⟩ := bind_ok h
    obtain ⟨cr, _, h⟩ := bind_ok h
    obtain ⟨ca, _, h⟩ := bind_ok h
    obtain ⟨ck, _, h⟩ := bind_ok h
    obtain ⟨s, _, h⟩ := bind_ok h
    obtain ⟨sn, _, h⟩ := bind_ok h
    obtain ⟨sm, _, h⟩ := bind_ok h
    obtain ⟨at', e, h⟩ := bind_ok h
    have : lp = v := by
      unfold need at hlp
      rw [hv] at hlp
      exact (Except.ok.inj hlp).symm
    subst this
    cases h
    exact ⟨rfl, rfl⟩
  have hr : fr.role = some (if env.rank ≥ env.number v then .sampler else .learner) ∧ fr.updates = !decide (env.rank ≥ env.number v) := by
    simp only [withRoles, List.mem_cons, List.not_mem_nil, or_false] at hal
    rcases hal with rfl | rfl | rfl <;> exact key _ _ _ _ h
  constructor
  · intro hlt
    have hnot : ¬ env.rank ≥ env.number v := by omega
    rw [hr.1, hr.2, if_neg hnot]
    exact ⟨rfl, by simp [hnot]⟩
  · intro hle
    have hge : env.rank ≥ env.number v := hle
    rw [hr.1, hr.2, if_pos hge]
    exact ⟨rfl, by simp [hge]⟩

/-- In a world of `size` processes that all start, the number of learners is the configured number (or all processes if there are fewer). -/
theorem C169_count {V : Type} (al : Algo) (hal : al ∈ withRoles) (env : Env V) (n size : Nat) (c : Key → Option V) (v : V)
    (hv : c .learnerProcessNumber = some v) (frames : Nat → Frame V)
    (h : ∀ r < size, init al { env with rank := r } n c = .ok (frames r)) :
    ((List.range size).filter fun r => (frames r).role = some .learner).length = min size (env.number v) := by
  have e : ∀ r < size, decide ((frames r).role = some .learner) = decide (r < env.number v) := by
    intro r hr
    have := C169_roles al hal { env with rank := r } n c v hv (frames r) (h r hr)
    by_cases hlt : r < env.number v
    · rw [(this.1 hlt).1]; simp [hlt]
    · rw [(this.2 (by simpa using hlt)).1]; simp [hlt]
  have e2 : (List.range size).filter (fun r => decide ((frames r).role = some .learner)) = (List.range size).filter (fun r => decide (r < env.number v)) := by
    apply List.filter_congr
    intro r hr
    exact e r (List.mem_range.mp hr)
  rw [e2]
  clear h e e2
  induction size with
  | zero => simp
  | succ size ih =>
    rw [List.range_succ, List.filter_append, List.length_append, ih]
    by_cases hlt : size < env.number v
    · simp [hlt]; omega
    · simp [hlt]; omega

/-- Frameworks without roles keep their `update`. -/
theorem C169_others (V : Type) (al : Algo) (hal : al ∉ withRoles) (env : Env V) (n : Nat) (c : Key → Option V) (fr : Frame V)
    (h : init al env n c = .ok fr) : fr.role = none ∧ fr.updates = true := by
  have plain : ∀ ls u, initPlain ls u n c = .ok fr → fr.role = none ∧ fr.updates = true := by
    intro ls u h
    unfold initPlain at h
    obtain ⟨m, _, h⟩ := bind_ok h
    obtain ⟨a, _, h⟩ := bind_ok h
    obtain ⟨k, _, h⟩ := bind_ok h
    obtain ⟨o, _, h⟩ := bind_ok h
    obtain ⟨cr, _, h⟩ := bind_ok h
    obtain ⟨ca, _, h⟩ := bind_ok h
    obtain ⟨ck, _, h⟩ := bind_ok h
    obtain ⟨s, _, h⟩ := bind_ok h
    obtain ⟨at', e, h⟩ := bind_ok h
    cases h
    exact ⟨rfl, rfl⟩
  cases al
  case dqnApex => exact absurd (by decide) hal
  case ddpgApex => exact absurd (by decide) hal
  case impala => exact absurd (by decide) hal
  case a3c =>
    change initA3c n c = .ok fr at h
    unfold initA3c at h
    iterate 15 obtain ⟨_, _, h⟩ := bind_ok h
    cases h
    exact ⟨rfl, rfl⟩
  case ars =>
    change initArs n c = .ok fr at h
    unfold initArs at h
    iterate 10 obtain ⟨_, _, h⟩ := bind_ok h
    cases h
    exact ⟨rfl, rfl⟩
  case gail =>
    change initGail env n c = .ok fr at h
    unfold initGail at h
    obtain ⟨p, _, h⟩ := bind_ok h
    cases hp : env.policyKind p with
    | none => simp only [hp] at h; cases h
    | some ppo =>
      simp only [hp] at h
      iterate 7 obtain ⟨_, _, h⟩ := bind_ok h
      cases n with
      | zero => cases h
      | succ n =>
        obtain ⟨_, _, h⟩ := bind_ok h
        cases h
        exact ⟨rfl, rfl⟩
  all_goals exact plain _ _ h

example : ∃ fr, init .impala ⟨1, fun _ => 1, fun _ => none, fun _ => false⟩ 2 (fun k => if k ∈ Algo.impala.keys then some () else none) = .ok fr ∧
    fr.role = some .sampler :=
  ⟨_, rfl, by decide +kernel⟩

end Machin.Frames
