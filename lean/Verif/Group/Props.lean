import Verif.Group.Lemmas
import Verif.Group.HelperLemmas

/-! # Properties of services, model servers, collective groups and calls of all members -/

namespace Machin.Group

/-! ### C170: services are ready when they are registered -/

/-- C170, full statement: at every moment of the construction of a distributed buffer or a server, what is already visible
to other processes works. -/
def C170_full : Prop := ∀ ctor ∈ constructors, ∀ k, Ready (Obj.run (ctor.take k))

/-- C170 is violated: the size of a distributed buffer is asked for after the service is registered and before the lock is
set: `AttributeError`. -/
theorem C170_violated : ¬ C170_full := by
  intro h
  exact absurd (h distributedSteps (by decide) 7) (by decide)

/-- During the whole construction of a distributed buffer, plain or prioritized, no request succeeds: before the
registration it raises `KeyError`, after it `AttributeError`, because the lock all services take is the last attribute set. -/
theorem C170_violated_buffers (ctor : List CStep) (hc : ctor = distributedSteps ∨ ctor = prioritizedSteps) (k : Nat)
    (hk : k < ctor.length) (s : String × List String) (hs : s ∈ (Obj.run ctor).services) :
    (Obj.run (ctor.take k)).call s.1 =
      if s ∈ (Obj.run (ctor.take k)).services then .error .attribute else .error .key := by
  rcases hc with rfl | rfl
  · revert s
    have : ∀ k < 10, ∀ s ∈ (Obj.run distributedSteps).services,
      (Obj.run (distributedSteps.take k)).call s.1 =
      if s ∈ (Obj.run (distributedSteps.take k)).services then .error .attribute else .error .key := by decide +kernel
    exact this k hk
  · revert s
    have : ∀ k < 19, ∀ s ∈ (Obj.run prioritizedSteps).services,
      (Obj.run (prioritizedSteps.take k)).call s.1 =
      if s ∈ (Obj.run (prioritizedSteps.take k)).services then .error .attribute else .error .key := by decide +kernel
    exact this k hk

/-- A gradient push arrives after the accessor of the gradient server is paired and before the queues are set:
`AttributeError`. -/
theorem C170_violated_grad : ∃ k, "server" ∈ (Obj.run (gradServerSteps.take k)).paired.map (·.1) ∧
    (Obj.run (gradServerSteps.take k)).use "server" "_push_service" = .error .attribute := ⟨16, by decide⟩

/-- The accessor of an ordered server is paired before its services are registered: a push through it raises `KeyError`. -/
theorem C170_violated_ordered : ∃ k, "o_server" ∈ (Obj.run ((orderedSteps "o_server").take k)).paired.map (·.1) ∧
    (Obj.run ((orderedSteps "o_server").take k)).use "o_server" "o_server/_push_service" = .error .key := ⟨4, by decide⟩

/-- C170, what does hold, for every constructor one can write in this way: if no service name is registered twice, then the
registered services work at every moment exactly if every attribute a service reads is set before the service is
registered. -/
theorem C170_order_partial (ctor : List CStep)
    (hn : ((Obj.run ctor).services.map (·.1)).Nodup) :
    (∀ k, ∀ s ∈ (Obj.run (ctor.take k)).services, (Obj.run (ctor.take k)).call s.1 = .ok ()) ↔
    (∀ pre s r post, ctor = pre ++ .register s r :: post → ∀ a ∈ r, CStep.set a ∈ pre) := by
  have hcall : ∀ k, ∀ s ∈ (Obj.run (ctor.take k)).services,
      ((Obj.run (ctor.take k)).call s.1 = .ok () ↔ ∀ a ∈ s.2, CStep.set a ∈ ctor.take k) := by
    intro k s hs
    have hsub : (Obj.run (ctor.take k)).services.map (·.1) <+: (Obj.run ctor).services.map (·.1) := by
      rw [services_run, services_run]
      conv => rhs; rw [← List.take_append_drop k ctor, List.filterMap_append, List.map_append]
      exact List.prefix_append _ _
    have hnk := hn.sublist hsub.sublist
    unfold Obj.call
    rw [find_of_nodup (r := s.2) hnk hs]
    dsimp only
    constructor
    · intro h
      split at h
      · rename_i hall
        intro a ha
        have := List.all_eq_true.1 hall a ha
        exact mem_attrs.1 (by simpa using this)
      · cases h
    · intro h
      rw [if_pos]
      rw [List.all_eq_true]
      intro a ha
      simpa using mem_attrs.2 (h a ha)
  constructor
  · intro h pre s r post he a ha
    have htake : ctor.take (pre.length + 1) = pre ++ [.register s r] := by
      rw [he, List.take_append]
      simp
    have hmem : (s, r) ∈ (Obj.run (ctor.take (pre.length + 1))).services := by
      rw [htake, services_run, List.filterMap_append]
      simp
    have h1 := (hcall _ _ hmem).1 (h _ _ hmem) a ha
    rw [htake] at h1
    rcases List.mem_append.1 h1 with h2 | h2
    · exact h2
    · simp at h2
  · intro h k s hs
    rw [hcall k s hs]
    intro a ha
    rw [services_run, List.mem_filterMap] at hs
    rcases hs with ⟨c, hc, hcs⟩
    cases c with
    | set a' => simp at hcs
    | pair key calls => simp at hcs
    | register s' r' =>
      simp only [Option.some.injEq] at hcs
      rcases List.append_of_mem hc with ⟨pre, post, he⟩
      have hfull : ctor = pre ++ .register s' r' :: (post ++ ctor.drop k) := by
        conv => lhs; rw [← List.take_append_drop k ctor, he]
        simp
      have := h pre s' r' _ hfull a (by rw [← hcs] at ha; exact ha)
      rw [he]
      simp [this]

/-- The services of an ordered server and of a model server work from the moment they are registered, and so does the
accessor of the model server. -/
theorem C170_servers_partial (k : Nat) :
    (∀ s ∈ (Obj.run ((orderedSteps "o_server").take k)).services,
      (Obj.run ((orderedSteps "o_server").take k)).call s.1 = .ok ()) ∧
    (∀ s ∈ (Obj.run (modelServerSteps.take k)).services, (Obj.run (modelServerSteps.take k)).call s.1 = .ok ()) ∧
    (∀ p ∈ (Obj.run (modelServerSteps.take k)).paired, p.1 = "server" →
      ∀ c ∈ p.2, (Obj.run (modelServerSteps.take k)).use "server" c = .ok ()) := by
  have key : ∀ k < 12,
    (∀ s ∈ (Obj.run ((orderedSteps "o_server").take k)).services,
      (Obj.run ((orderedSteps "o_server").take k)).call s.1 = .ok ()) ∧
    (∀ s ∈ (Obj.run (modelServerSteps.take k)).services, (Obj.run (modelServerSteps.take k)).call s.1 = .ok ()) ∧
    (∀ p ∈ (Obj.run (modelServerSteps.take k)).paired, p.1 = "server" →
      ∀ c ∈ p.2, (Obj.run (modelServerSteps.take k)).use "server" c = .ok ()) := by decide +kernel
  by_cases hk : k < 12
  · exact key k hk
  · have h1 : (orderedSteps "o_server").take k = (orderedSteps "o_server").take 11 := by
      rw [List.take_of_length_le (by simp [orderedSteps]; omega), List.take_of_length_le (by decide)]
    have h2 : modelServerSteps.take k = modelServerSteps.take 11 := by
      rw [List.take_of_length_le (by simp [modelServerSteps, orderedSteps]; omega), List.take_of_length_le (by decide)]
    rw [h1, h2]
    exact key 11 (by decide)

/-- What a request through an accessor comes to, at every moment of any constructor: `KeyError` while the accessor is not paired or the service is not
registered, `AttributeError` while an attribute is missing that the service reads, and success otherwise. -/
theorem C170_use_partial (ctor : List CStep) (key service : String) (r : List String)
    (hn : ((Obj.run ctor).services.map (·.1)).Nodup) (k : Nat) :
    ((∀ calls, CStep.pair key calls ∉ ctor.take k) → (Obj.run (ctor.take k)).use key service = .error .key) ∧
    ((∀ r, CStep.register service r ∉ ctor.take k) → (Obj.run (ctor.take k)).use key service = .error .key) ∧
    ((∃ calls, CStep.pair key calls ∈ ctor.take k) → CStep.register service r ∈ ctor.take k →
      (Obj.run (ctor.take k)).use key service = if ∀ a ∈ r, CStep.set a ∈ ctor.take k then .ok () else .error .attribute) := by
  have hp : ∀ l : List CStep, ∀ key calls, (key, calls) ∈ (Obj.run l).paired ↔ CStep.pair key calls ∈ l := by
    intro l key calls
    have gen : ∀ (l : List CStep) (o : Obj), (key, calls) ∈ (l.foldl Obj.step o).paired ↔ (key, calls) ∈ o.paired ∨ CStep.pair key calls ∈ l := by
      intro l
      induction l with
      | nil => intro o; simp
      | cons c l ih =>
        intro o
        rw [List.foldl_cons, ih]
        cases c <;> simp [Obj.step, or_assoc]
    simpa [Obj.run, Obj.empty] using gen l Obj.empty
  have hs : ∀ r, (service, r) ∈ (Obj.run (ctor.take k)).services ↔ CStep.register service r ∈ ctor.take k := by
    intro r
    rw [services_run, List.mem_filterMap]
    constructor
    · rintro ⟨c, hc, hcs⟩
      cases c with
      | set a' => simp at hcs
      | pair key calls => simp at hcs
      | register s' r' => simp only [Option.some.injEq] at hcs; cases hcs; exact hc
    · intro h; exact ⟨_, h, rfl⟩
  have hnk : ((Obj.run (ctor.take k)).services.map (·.1)).Nodup := by
    refine hn.sublist (List.IsPrefix.sublist ?_)
    rw [services_run, services_run]
    conv => rhs; rw [← List.take_append_drop k ctor, List.filterMap_append, List.map_append]
    exact List.prefix_append _ _
  refine ⟨?_, ?_, ?_⟩
  · intro h
    unfold Obj.use
    have : (Obj.run (ctor.take k)).paired.find? (fun p => p.1 == key) = none := by
      rw [List.find?_eq_none]
      intro x hx hk
      have hk : x.1 = key := by simpa using hk
      exact h x.2 ((hp _ _ _).1 (by rw [← hk]; exact hx))
    rw [this]
  · intro h
    have hc : (Obj.run (ctor.take k)).call service = .error .key := by
      unfold Obj.call
      have : (Obj.run (ctor.take k)).services.find? (fun p => p.1 == service) = none := by
        rw [List.find?_eq_none]
        intro x hx hk
        have hk : x.1 = service := by simpa using hk
        exact h x.2 ((hs _).1 (by rw [← hk]; exact hx))
      rw [this]
    unfold Obj.use
    split
    · rfl
    · exact hc
  · rintro ⟨calls, hcalls⟩ hr
    unfold Obj.use
    have : ∃ x, (Obj.run (ctor.take k)).paired.find? (fun p => p.1 == key) = some x := by
      cases hf : (Obj.run (ctor.take k)).paired.find? (fun p => p.1 == key) with
      | some x => exact ⟨x, rfl⟩
      | none =>
        rw [List.find?_eq_none] at hf
        exact absurd (beq_self_eq_true key) (hf _ ((hp _ _ _).2 hcalls))
    obtain ⟨x, hx⟩ := this
    rw [hx]
    simp only [Obj.call]
    rw [find_of_nodup (r := r) hnk ((hs r).2 hr)]
    simp only
    by_cases h : ∀ a ∈ r, CStep.set a ∈ ctor.take k
    · rw [if_pos h, if_pos]
      rw [List.all_eq_true]
      intro a ha
      simpa using mem_attrs.2 (h a ha)
    · rw [if_neg h, if_neg]
      intro hall
      refine h fun a ha => ?_
      have := List.all_eq_true.1 hall a ha
      exact mem_attrs.1 (by simpa using this)

/-- When a constructor has ended, everything it made visible works. Missing from the full statement: the time before. -/
theorem C170_partial : ∀ ctor ∈ constructors, Ready (Obj.run ctor) := by decide +kernel

example : ((Obj.run gradServerSteps).services.map (·.1)).Nodup := by decide

/-! ### C171: model servers -/

/-- Every member that returns from `model_server_helper` returns the accessors of the servers made by the first process of
the list, in order, whatever the order in which the processes run. -/
theorem C171_tuple (num first : Nat) (members : List Nat) (hf : first ∈ members) (schedule : List Nat) (p : Nat)
    (hp : p ∈ members) (h : (hrun members (hinit num first members) schedule).todo p = []) :
    returned num (hrun members (hinit num first members) schedule) p =
      (List.range num).map fun i => .ok (some (.accessor first i)) := by
  have inv := HInv.run (num := num) hf schedule
  rcases inv.phase with hw | hm
  · rcases hw with ⟨m, o, rest, tail, hrep, htodo, hnb, hent, hseq, hres, hb⟩
    by_cases hpf : p = first
    · subst hpf; rw [h] at htodo; cases htodo
    · have := (hb p hp hpf).1; rw [h] at this; cases this
  · rcases hm.2 p hp with hb | ⟨he, j, hj, ht, hr⟩
    · have := hb.1; rw [h] at this; cases this
    · have hjn : j = num := by
        by_cases hjn : j < num
        · rw [h, lookupsFrom_lt hjn] at ht; cases ht
        · omega
      subst hjn
      have hlen : (expected first j).length = j := by simp [expected]
      unfold returned
      rw [hr, List.take_of_length_le (by omega), List.length_append, hlen, Nat.add_sub_cancel, List.drop_left]
      rfl

/-- No operation of the helper raises in any member, at any time. -/
theorem C171_no_error (num first : Nat) (members : List Nat) (hf : first ∈ members) (schedule : List Nat) (p : Nat)
    (hp : p ∈ members) (r : Except Err (Option Val))
    (hr : r ∈ (hrun members (hinit num first members) schedule).results p) : ∃ v, r = .ok v := by
  have inv := HInv.run (num := num) hf schedule
  have hbase : ∀ q, r ∈ base num first q → ∃ v, r = .ok v := by
    intro q h
    unfold base at h
    split at h
    · exact own_ok h
    · cases h
  rcases inv.phase with hw | hm
  · rcases hw with ⟨m, o, rest, tail, hrep, htodo, hnb, hent, hseq, hres, hb⟩
    by_cases hpf : p = first
    · subst hpf
      exact own_ok (p := p) (n := num) (by rw [← hres]; simp [hr])
    · rw [(hb p hp hpf).2] at hr
      exact hbase p hr
  · rcases hm.2 p hp with hb | ⟨he, j, hj, ht, hres⟩
    · rw [hb.2] at hr; exact hbase p hr
    · rw [hres] at hr
      rcases List.mem_append.1 hr with h | h
      · exact hbase p h
      · have := List.mem_of_mem_take h
        rcases List.mem_map.1 this with ⟨i, _, hi⟩
        exact ⟨_, hi.symm⟩

/-- From every moment on, all members can still return. -/
theorem C171_returns (num first : Nat) (members : List Nat) (hf : first ∈ members) (schedule : List Nat) :
    ∃ more, ∀ p ∈ members, (hrun members (hinit num first members) (schedule ++ more)).todo p = [] := by
  rcases HInv.finish hf _ _ (HInv.run (num := num) hf schedule) (Nat.le_refl _) with ⟨more, h⟩
  refine ⟨more, fun p hp => ?_⟩
  have e : hrun members (hinit num first members) (schedule ++ more) =
      hrun members (hrun members (hinit num first members) schedule) more := by simp [hrun]
  rw [e]
  exact h p hp

/-- A process that is not in the list, and follows the documentation ("requires all processes in the world to enter"), gets
`RuntimeError`; the members do not. -/
theorem C171_outside (members : List Nat) (p : Nat) : helperEnter members p = .error .runtime ↔ p ∉ members := by
  unfold helperEnter
  by_cases h : p ∈ members <;> simp [h]

example : (hrun [7, 3] (hinit 2 7 [7, 3]) ([3, 3, 7, 3] ++ List.replicate 15 7 ++ [3, 3, 3, 3])).todo 3 = [] ∧
    returned 2 (hrun [7, 3] (hinit 2 7 [7, 3]) ([3, 3, 7, 3] ++ List.replicate 15 7 ++ [3, 3, 3, 3])) 3 =
      [.ok (some (.accessor 7 0)), .ok (some (.accessor 7 1))] := by decide +kernel

/-! ### C172: collective groups -/

/-- The relative rank of a member is the number of members with a smaller rank; a process outside has none. -/
theorem C172_rank (ranks : List Nat) (rank : Nat) :
    (createCollective ranks rank).current = if rank ∈ ranks then some (ranks.filter (· < rank)).length else none := by
  unfold createCollective
  dsimp only
  by_cases h : rank ∈ ranks
  · rw [if_pos (mem_sortRanks.2 h), if_pos h, indexOf_sorted (sortRanks_sorted ranks) (mem_sortRanks.2 h), sortRanks_count]
  · rw [if_neg (fun hc => h (mem_sortRanks.1 hc)), if_neg h]

/-- The order in which the ranks are given to `create_collective_group` does not matter. -/
theorem C172_order (ranks ranks' : List Nat) (h : ranks.Perm ranks') (rank : Nat) :
    (createCollective ranks rank).current = (createCollective ranks' rank).current := by
  rw [C172_rank, C172_rank]
  have h1 : rank ∈ ranks ↔ rank ∈ ranks' := h.mem_iff
  have h2 : (ranks.filter (· < rank)).length = (ranks'.filter (· < rank)).length := (h.filter _).length_eq
  simp only [h1, h2]

/-- A message sent by member `a` to member `b` by its rank is received by `b`, from any source or from `a`, and `wait`
returns the rank of `a`: the first message for `b` (from `a`) that is in flight. -/
theorem C172_receive (ranks : List Nat) (a b body : Nat) (ha : a ∈ ranks) (hb : b ∈ ranks) (pre post : List Msg) :
    ∃ m, (createCollective ranks a).send b body = .ok (some m) ∧
      ((∀ x ∈ pre, x.dst ≠ m.dst) →
        (createCollective ranks b).irecv none (pre ++ m :: post) = some (.ok (.got a body), pre ++ post)) ∧
      ((∀ x ∈ pre, ¬ (x.dst = m.dst ∧ x.src = m.src)) →
        (createCollective ranks b).irecv (some a) (pre ++ m :: post) = some (.ok (.got a body), pre ++ post)) := by
  rcases indexOf_some (mem_sortRanks.2 ha) with ⟨i, hi, hgi⟩
  rcases indexOf_some (mem_sortRanks.2 hb) with ⟨j, hj, _⟩
  refine ⟨⟨i, j, body⟩, ?_, ?_, ?_⟩
  · simp [createCollective, CGroup.send, groupRank, hi, hj]
  · intro hpre
    simp only [createCollective, CGroup.irecv, hj]
    rw [takeMsg_first pre post ⟨i, j, body⟩ (fun x hx hc => hpre x hx hc.1) ⟨rfl, Or.inl rfl⟩]
    simp [globalRank, hgi]
  · intro hpre
    simp only [createCollective, CGroup.irecv, hj, groupRank, hi]
    rw [takeMsg_first pre post ⟨i, j, body⟩ ?_ ⟨rfl, Or.inr rfl⟩]
    rintro x hx ⟨h1, h2⟩
    rcases h2 with h2 | h2
    · cases h2
    · exact hpre x hx ⟨h1, by cases h2; rfl⟩

/-- What `wait` returns is true: if all messages in flight were sent by members, the process it names has sent the content
to the receiver (so an answer sent to that rank goes to the sender). -/
theorem C172_source (ranks : List Nat) (b : Nat) (hb : b ∈ ranks) (net net' : List Msg) (src : Option Nat)
    (hnet : ∀ m ∈ net, ∃ a ∈ ranks, ∃ dst ∈ ranks, (createCollective ranks a).send dst m.body = .ok (some m))
    (s body : Nat) (h : (createCollective ranks b).irecv src net = some (.ok (.got s body), net')) :
    s ∈ ranks ∧ ∃ m ∈ net, (createCollective ranks s).send b body = .ok (some m) := by
  rcases indexOf_some (mem_sortRanks.2 hb) with ⟨j, hj, hgj⟩
  have key : ∀ m ∈ net, m.dst = j → ∃ a ∈ ranks, indexOf? a (sortRanks ranks) = some m.src ∧
      (createCollective ranks a).send b m.body = .ok (some m) := by
    intro m hm hd
    rcases hnet m hm with ⟨a, ha, dst, hdst, hs⟩
    rcases indexOf_some (mem_sortRanks.2 ha) with ⟨i, hi, hgi⟩
    rcases indexOf_some (mem_sortRanks.2 hdst) with ⟨k, hk, hgk⟩
    have hs' : (⟨i, k, m.body⟩ : Msg) = m := by
      simpa [createCollective, CGroup.send, groupRank, hi, hk] using hs
    have h1 : m.src = i := by rw [← hs']
    have h2 : m.dst = k := by rw [← hs']
    rw [h2] at hd
    have hdb : dst = b := by
      rw [hd] at hgk
      rw [hgj] at hgk
      exact (Option.some.inj hgk).symm
    subst hdb
    exact ⟨a, ha, by rw [h1]; exact hi, hs⟩
  cases src with
  | none =>
    simp only [createCollective, CGroup.irecv, hj] at h
    cases ht : takeMsg j none net with
    | none => rw [ht] at h; cases h
    | some r =>
      rcases r with ⟨m, n'⟩
      rw [ht] at h
      rcases takeMsg_mem ht with ⟨hm, hd, _⟩
      rcases key m hm hd with ⟨a, ha, hia, hs⟩
      simp only [globalRank, indexOf_get hia, Option.some.injEq, Prod.mk.injEq, Except.ok.injEq, Recv.got.injEq] at h
      rcases h with ⟨⟨h1, h2⟩, _⟩
      subst h1; subst h2
      exact ⟨ha, m, hm, hs⟩
  | some s0 =>
    simp only [createCollective, CGroup.irecv, hj, groupRank] at h
    cases hi : indexOf? s0 (sortRanks ranks) with
    | none => rw [hi] at h; simp at h
    | some i =>
      rw [hi] at h
      dsimp only at h
      cases ht : takeMsg j (some i) net with
      | none => rw [ht] at h; cases h
      | some r =>
        rcases r with ⟨m, n'⟩
        rw [ht] at h
        rcases takeMsg_mem ht with ⟨hm, hd, hsrc⟩
        rcases key m hm hd with ⟨a, ha, hia, hs⟩
        have hmi : m.src = i := by
          rcases hsrc with h' | h'
          · cases h'
          · exact (Option.some.inj h').symm
        have has : a = s0 := by
          have h1 := indexOf_get hia
          have h2 := indexOf_get hi
          rw [hmi, h2] at h1
          exact (Option.some.inj h1).symm
        simp only [Option.some.injEq, Prod.mk.injEq, Except.ok.injEq, Recv.got.injEq] at h
        rcases h with ⟨⟨h1, h2⟩, _⟩
        subst h1; subst h2; subst has
        exact ⟨ha, m, hm, hs⟩

/-- A process outside the group sends nothing, and its `wait` returns -1 at once and takes no message. -/
theorem C172_outside (ranks : List Nat) (a : Nat) (ha : a ∉ ranks) (dst body : Nat) (src : Option Nat) (net : List Msg) :
    (createCollective ranks a).send dst body = .ok none ∧
    (createCollective ranks a).irecv src net = some (.ok .outside, net) := by
  have h := indexOf_none (fun h => ha (mem_sortRanks.1 h))
  constructor
  · simp [createCollective, CGroup.send, h]
  · simp [createCollective, CGroup.irecv, h]

/-- A member that names a source outside the group gets `RuntimeError` and takes no message. -/
theorem C172_wrong_source (ranks : List Nat) (b s : Nat) (hb : b ∈ ranks) (hs : s ∉ ranks) (net : List Msg) :
    (createCollective ranks b).irecv (some s) net = some (.error .runtime, net) := by
  rcases indexOf_some (mem_sortRanks.2 hb) with ⟨j, hj, _⟩
  have h := indexOf_none (fun h => hs (mem_sortRanks.1 h))
  simp [createCollective, CGroup.irecv, groupRank, hj, h]

/-- In the group of the whole world the numbers are the global ranks: the first message for this process, from any source or from the named one, is
received and `wait` returns the rank of its sender; without such a message `wait` blocks. -/
theorem C172_world (g : CGroup) (hg : g.ranks = none) (a dst body : Nat) (pre post : List Msg) :
    g.send dst body = .ok (some ⟨g.self, dst, body⟩) ∧
    ((∀ x ∈ pre, x.dst ≠ g.self) → g.irecv none (pre ++ ⟨a, g.self, body⟩ :: post) = some (.ok (.got a body), pre ++ post)) ∧
    ((∀ x ∈ pre, ¬ (x.dst = g.self ∧ x.src = a)) →
      g.irecv (some a) (pre ++ ⟨a, g.self, body⟩ :: post) = some (.ok (.got a body), pre ++ post)) ∧
    ((∀ x ∈ pre, x.dst ≠ g.self) → g.irecv none pre = none ∧ g.irecv (some a) pre = none) := by
  refine ⟨by simp [CGroup.send, hg], fun h => ?_, fun h => ?_, fun h => ?_⟩
  · simp only [CGroup.irecv, hg]
    rw [takeMsg_first pre post ⟨a, g.self, body⟩ (fun x hx hc => h x hx hc.1) ⟨rfl, Or.inl rfl⟩]
  · simp only [CGroup.irecv, hg]
    rw [takeMsg_first pre post ⟨a, g.self, body⟩ ?_ ⟨rfl, Or.inr rfl⟩]
    rintro x hx ⟨h1, h2⟩
    rcases h2 with h2 | h2
    · cases h2
    · exact h x hx ⟨h1, by cases h2; rfl⟩
  · have key : ∀ src, takeMsg g.self src pre = none := by
      intro src
      induction pre with
      | nil => rfl
      | cons m ms ih =>
        simp only [takeMsg]
        rw [if_neg (fun hc => h m (by simp) hc.1), ih (fun x hx => h x (by simp [hx]))]
        rfl
    simp only [CGroup.irecv, hg, key, and_self]

example : (⟨none, none, 3, false, 0⟩ : CGroup).irecv none [⟨0, 1, 7⟩, ⟨2, 3, 8⟩] = some (.ok (.got 2 8), [⟨0, 1, 7⟩]) := by decide

/-- However often `destroy` is called, by the user and by `__del__`, the process group is destroyed once. -/
theorem C172_destroy (ranks : List Nat) (rank n : Nat) :
    ((CGroup.destroy)^[n] (createCollective ranks rank)).calls = min n 1 := by
  cases n with
  | zero => rfl
  | succ n =>
    rw [Function.iterate_succ_apply]
    have h1 : (createCollective ranks rank).destroy.destroyed = true := rfl
    have h2 : (createCollective ranks rank).destroy.calls = 1 := rfl
    have key : ∀ g : CGroup, g.destroyed = true → (CGroup.destroy)^[n] g = g := by
      intro g hg
      induction n with
      | zero => rfl
      | succ n ih => rw [Function.iterate_succ_apply', ih, CGroup.destroy, if_pos hg]
    rw [key _ h1, h2]
    omega

example : (createCollective [9, 2, 5] 5).current = some 1 ∧
    (createCollective [9, 2, 5] 2).irecv none [⟨2, 1, 40⟩, ⟨1, 0, 41⟩] = some (.ok (.got 5 41), [⟨2, 1, 40⟩]) := by decide

/-! ### C173: `all_size` and `all_clear` -/

variable {B : Type}

/-- `all_size` adds, for every member, the size its buffer had at some moment during the call. -/
theorem C173_size (size : B → Nat) (members : List Nat) (registered : Nat → Bool)
    (hreg : ∀ m ∈ members, registered m = true) (hn : members.Nodup) (buf : Nat → B) (evs : List (Ev B))
    (hc : Complete members evs) :
    ∃ upto : Nat → List (Ev B), (∀ p ∈ members, upto p <+: evs) ∧
      allSize size registered members buf evs = .ok (some (members.map fun p => size (others p (upto p) (buf p))).sum) := by
  have hns : (servers evs).Nodup := hc.nodup_iff.2 hn
  have hsplit : ∀ p, ∃ pre, p ∈ members → pre <+: evs ∧
      (Call.run (sizeService size) buf evs).ans p = some (size (others p pre (buf p))) := by
    intro p
    by_cases hp : p ∈ members
    · rcases split_serve (hc.mem_iff.2 hp) hns with ⟨pre, post, he, h1, h2⟩
      refine ⟨pre, fun _ => ⟨⟨_, he.symm⟩, ?_⟩⟩
      rw [he]
      exact (run_split (sizeService size) buf p pre post h1 h2).2
    · exact ⟨[], fun h => absurd h hp⟩
  refine ⟨fun p => Classical.choose (hsplit p), fun p hp => (Classical.choose_spec (hsplit p) hp).1, ?_⟩
  unfold allSize
  rw [reached_all hreg, if_pos rfl, sumAnswers_eq (fun p hp => (Classical.choose_spec (hsplit p) hp).2)]

/-- If nothing else happens, `all_size` is the sum of the sizes. -/
theorem C173_size_quiet (size : B → Nat) (members : List Nat) (registered : Nat → Bool)
    (hreg : ∀ m ∈ members, registered m = true) (hn : members.Nodup) (buf : Nat → B) (evs : List (Ev B))
    (hc : Complete members evs) (hq : ∀ p f, Ev.other p f ∉ evs) :
    allSize size registered members buf evs = .ok (some (members.map fun p => size (buf p)).sum) := by
  rcases C173_size size members registered hreg hn buf evs hc with ⟨upto, hup, h⟩
  rw [h]
  have : ∀ p ∈ members, size (others p (upto p) (buf p)) = size (buf p) := by
    intro p hp
    have key : ∀ (l : List (Ev B)) (b : B), (∀ e ∈ l, e ∈ evs) → others p l b = b := by
      intro l
      induction l with
      | nil => intro b _; rfl
      | cons e es ih =>
        intro b hsub
        cases e with
        | other q f => exact absurd (hsub _ (by simp)) (hq q f)
        | serve q => exact ih b (fun e he => hsub e (by simp [he]))
    rw [key _ _ (fun e he => (hup p hp).subset he)]
  rw [List.map_congr_left this]

/-- If the other operations of the members never shrink a buffer, `all_size` lies between the total at the beginning and the
total at the end of the call. -/
theorem C173_size_between (size : B → Nat) (members : List Nat) (registered : Nat → Bool)
    (hreg : ∀ m ∈ members, registered m = true) (hn : members.Nodup) (buf : Nat → B) (evs : List (Ev B))
    (hc : Complete members evs) (hg : ∀ p f, Ev.other p f ∈ evs → ∀ b, size b ≤ size (f b)) :
    ∃ n, allSize size registered members buf evs = .ok (some n) ∧ (members.map fun p => size (buf p)).sum ≤ n ∧
      n ≤ (members.map fun p => size (others p evs (buf p))).sum := by
  rcases C173_size size members registered hreg hn buf evs hc with ⟨upto, hup, h⟩
  refine ⟨_, h, ?_, ?_⟩
  all_goals
    have key : ∀ (p : Nat) (l : List (Ev B)) (b : B), (∀ e ∈ l, e ∈ evs) → size b ≤ size (others p l b) := by
      intro p l
      induction l with
      | nil => intro b _; exact Nat.le_refl _
      | cons e es ih =>
        intro b hsub
        cases e with
        | other q f =>
          have h2 := ih (if q = p then f b else b) (fun e he => hsub e (by simp [he]))
          refine Nat.le_trans ?_ h2
          split
          · exact hg q f (hsub _ (by simp)) b
          · exact Nat.le_refl _
        | serve q => exact ih b (fun e he => hsub e (by simp [he]))
    have hsum : ∀ (l : List Nat) (f g : Nat → Nat), (∀ p ∈ l, f p ≤ g p) → (l.map f).sum ≤ (l.map g).sum := by
      intro l f g hfg
      induction l with
      | nil => simp
      | cons a l ih =>
        simp only [List.map_cons, List.sum_cons]
        have := hfg a (by simp)
        have := ih (fun p hp => hfg p (by simp [hp]))
        omega
  · exact hsum _ _ _ (fun p hp => key p _ _ (fun e he => (hup p hp).subset he))
  · refine hsum _ _ _ (fun p hp => ?_)
    rcases hup p hp with ⟨rest, hrest⟩
    have e : others p evs (buf p) = others p rest (others p (upto p) (buf p)) := by
      conv => lhs; rw [← hrest]
      rw [others_append]
    rw [e]
    exact key p rest _ (fun e he => by rw [← hrest]; simp [he])

/-- `all_clear` clears the buffer of every member once during the call: afterwards a member has exactly what its operations
after that moment made of the cleared buffer. Other processes are not touched. -/
theorem C173_clear (clear : B → B) (members : List Nat) (registered : Nat → Bool)
    (hreg : ∀ m ∈ members, registered m = true) (hn : members.Nodup) (buf : Nat → B) (evs : List (Ev B))
    (hc : Complete members evs) :
    (allClear clear registered members buf evs).2 = .ok () ∧
    (∀ p ∈ members, ∃ pre post, evs = pre ++ .serve p :: post ∧
      (allClear clear registered members buf evs).1 p = others p post (clear (others p pre (buf p)))) ∧
    (∀ p, p ∉ members → (allClear clear registered members buf evs).1 p = others p evs (buf p)) := by
  have hns : (servers evs).Nodup := hc.nodup_iff.2 hn
  refine ⟨?_, ?_, ?_⟩
  · unfold allClear; rw [reached_all hreg]; rfl
  · intro p hp
    rcases split_serve (hc.mem_iff.2 hp) hns with ⟨pre, post, he, h1, h2⟩
    refine ⟨pre, post, he, ?_⟩
    unfold allClear
    dsimp only
    rw [he]
    exact (run_split (clearService clear) buf p pre post h1 h2).1
  · intro p hp
    exact (fold_noServe (clearService clear) p evs
      (noServe_iff.2 (fun h => hp (hc.mem_iff.1 h))) ⟨buf, fun _ => none⟩).1

/-- After an undisturbed `all_clear` of plain distributed buffers, `all_size` is 0. -/
theorem C173_clear_size {τ : Type} (members : List Nat) (registered : Nat → Bool)
    (hreg : ∀ m ∈ members, registered m = true) (hn : members.Nodup) (buf : Nat → Replay.Buffer τ)
    (evs evs' : List (Ev (Replay.Buffer τ))) (hc : Complete members evs) (hq : ∀ p f, Ev.other p f ∉ evs)
    (hc' : Complete members evs') (hq' : ∀ p f, Ev.other p f ∉ evs') :
    allSize Replay.Buffer.size registered members (allClear Replay.Buffer.clear registered members buf evs).1 evs' =
      .ok (some 0) := by
  rw [C173_size_quiet _ _ _ hreg hn _ _ hc' hq']
  have hz : ∀ p ∈ members, Replay.Buffer.size ((allClear Replay.Buffer.clear registered members buf evs).1 p) = 0 := by
    intro p hp
    rcases (C173_clear Replay.Buffer.clear members registered hreg hn buf evs hc).2.1 p hp with ⟨pre, post, he, hb⟩
    rw [hb]
    have key : ∀ (l : List (Ev (Replay.Buffer τ))) (b : Replay.Buffer τ), (∀ e ∈ l, e ∈ evs) → others p l b = b := by
      intro l
      induction l with
      | nil => intro b _; rfl
      | cons e es ih =>
        intro b hsub
        cases e with
        | other q f => exact absurd (hsub _ (by simp)) (hq q f)
        | serve q => exact ih b (fun e he => hsub e (by simp [he]))
    rw [key post _ (fun e h => by rw [he]; simp [h])]
    rfl
  rw [List.map_congr_left hz]
  simp

/-- If a member has not registered its services yet, both calls raise `KeyError`; by then the members before it have been
asked, so an `all_clear` that raises has cleared their buffers. -/
theorem C173_unregistered (size : B → Nat) (clear : B → B) (registered : Nat → Bool) (pre post : List Nat) (m : Nat)
    (hpre : ∀ q ∈ pre, registered q = true) (hm : registered m = false) (hn : pre.Nodup) (buf : Nat → B)
    (evs : List (Ev B)) (hc : Complete (reached registered (pre ++ m :: post)).1 evs) :
    allSize size registered (pre ++ m :: post) buf evs = .error .key ∧
    (allClear clear registered (pre ++ m :: post) buf evs).2 = .error .key ∧
    (∀ p ∈ pre, ∃ a b, evs = a ++ .serve p :: b ∧
      (allClear clear registered (pre ++ m :: post) buf evs).1 p = others p b (clear (others p a (buf p)))) := by
  rw [reached_stop pre post m hpre hm] at hc
  have hns : (servers evs).Nodup := hc.nodup_iff.2 hn
  refine ⟨?_, ?_, ?_⟩
  · unfold allSize; rw [reached_stop pre post m hpre hm]; rfl
  · unfold allClear; rw [reached_stop pre post m hpre hm]; rfl
  · intro p hp
    rcases split_serve (hc.mem_iff.2 hp) hns with ⟨a, b, he, h1, h2⟩
    refine ⟨a, b, he, ?_⟩
    unfold allClear
    dsimp only
    rw [he]
    exact (run_split (clearService clear) buf p a b h1 h2).1

example : allSize List.length (fun _ => true) [0, 1, 2] (fun p => List.replicate p 'x')
    [.serve 2, .other 2 (fun l => 'y' :: l), .other 1 (fun l => 'y' :: l), .serve 1, .serve 0] = .ok (some 4) := by
  decide

example : Complete [0, 1, 2] ([.serve 2, .other 1 (fun l => 'y' :: l), .serve 1, .serve 0] : List (Ev (List Char))) := by
  unfold Complete
  decide

end Machin.Group
