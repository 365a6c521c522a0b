import Verif.World.Lemmas
import Verif.World.Local

/-!
# C203: the world object knows its process. C204: copies of groups and calls
-/

namespace Machin.World

open Spec

/-! ### C203 -/

/-- Torch takes the ranks that it is given. -/
def Honest (host : Host) : Prop := ∀ n : Nat, host.dist n = .ok n ∧ host.rpc n = .ok n

/-- The process is among the peers with the rank under which it has joined. -/
def Joined (host : Host) (a : Args) : Prop := ∀ r, host.rpc a.rank = .ok r → (r, a.name) ∈ host.peers

/-- A process in which nothing has happened yet. -/
def fresh : Global := ⟨none, none, none⟩

/-- The whole property: the rank that a process reads is the one under which the others know it, whether it was given or found out by torch
(the documentation: "You do not need to specify it if you are using `torch.distributed.launch`"), and a construction that failed can be
repeated. -/
def C203_full : Prop :=
  (∀ (host : Host) (a : Args) (g : Global), Honest host → Joined host a → newWorld host a fresh = (g, .ok ()) →
    ∃ r : Nat, curRank g = .ok (r : Int) ∧ (r, a.name) ∈ host.peers) ∧
  (∀ (host host' : Host) (a : Args) (g : Global) (e : Err), newWorld host a fresh = (g, .error e) →
    (∃ g', newWorld host' a fresh = (g', .ok ())) → ∃ g', newWorld host' a g = (g', .ok ()))

/-- A process whose rank is found out by torch keeps -1. -/
theorem C203_violated_rank (host : Host) (a : Args) (g : Global) (ha : a.rank = -1) (h : newWorld host a fresh = (g, .ok ())) :
    curRank g = .ok (-1) := by
  unfold newWorld fresh at h
  dsimp only at h
  split at h
  · cases h
  · split at h
    · cases h
    · split at h
      · cases h
      · split at h
        · cases h
        · cases h
          simp [curRank, ha]

/-- ... and is a learner, whatever its real rank is and however few learners there should be. -/
theorem C203_violated_learner (host : Host) (a : Args) (g : Global) (w : Obj) (n : Nat) (ha : a.rank = -1)
    (h : newWorld host a fresh = (g, .ok ())) (hw : g.world = some w) : isLearner w n = true := by
  have := C203_violated_rank host a g ha h
  rw [curRank, hw] at this
  simp only [Except.ok.injEq] at this
  simp only [isLearner, this]
  simp
  omega

def envHost : Host :=
  ⟨fun r => if r = -1 then .ok 1 else .ok r.toNat, fun r => if r = -1 then .ok 1 else .ok r.toNat, [(0, 10), (1, 11)]⟩

/-- The RPC agent cannot be started, for example because its port is in use. -/
def brokenRpc : Host := ⟨fun r => .ok r.toNat, fun _ => .error .runtime, []⟩

theorem C203_violated : ¬ C203_full := by
  rintro ⟨h, _⟩
  obtain ⟨r, h1, _⟩ := h envHost { name := 11 } (newWorld envHost { name := 11 } fresh).1 (fun n => by simp [envHost])
    (fun r hr => by simp [envHost] at hr; subst hr; simp [envHost]) rfl
  have : curRank (newWorld envHost { name := 11 } fresh).1 = .ok (-1) := by decide
  rw [this] at h1
  simp only [Except.ok.injEq] at h1
  omega

/-- A construction that fails after the process group was made cannot be repeated. -/
theorem C203_violated_retry : ¬ (∀ (host host' : Host) (a : Args) (g : Global) (e : Err), newWorld host a fresh = (g, .error e) →
    (∃ g', newWorld host' a fresh = (g', .ok ())) → ∃ g', newWorld host' a g = (g', .ok ())) := by
  intro h
  obtain ⟨g', hg⟩ := h brokenRpc envHost { name := 10, rank := 0 } _ _ rfl ⟨_, rfl⟩
  have : (newWorld envHost { name := 10, rank := 0 } (newWorld brokenRpc { name := 10, rank := 0 } fresh).1).2 = .error .runtime := by decide
  have h2 : (newWorld envHost { name := 10, rank := 0 } (newWorld brokenRpc { name := 10, rank := 0 } fresh).1).2 = .ok () := by
    have := congrArg Prod.snd hg
    exact this
  rw [this] at h2
  cases h2

/-- Without the RPC agent there is no world. -/
theorem C203_violated_norpc (host : Host) (a : Args) (ha : a.initRpc = false) : ∃ e, (newWorld host a fresh).2 = .error e := by
  unfold newWorld fresh
  dsimp only
  split
  · exact ⟨_, rfl⟩
  · rw [ha]
    exact ⟨_, rfl⟩

/-- With a given rank the process knows its rank and its name, and the manager is the process of rank 0. -/
theorem C203_given_partial (host : Host) (a : Args) (r : Nat) (hr : a.rank = r) (hh : Honest host) (hj : Joined host a) (m : Nat)
    (h0 : (0, m) ∈ host.peers) (hd : (host.peers.map (·.1)).Nodup) (hrpc : a.initRpc = true) :
    ∃ w dist, newWorld host a fresh = (⟨some w, dist, some r⟩, .ok ()) ∧
      curRank (newWorld host a fresh).1 = .ok (r : Int) ∧ w.name = a.name ∧ (r, w.name) ∈ w.map ∧ w.manager = m ∧
      (dist = if a.initDist then some r else none) := by
  have hl : host.peers.lookup 0 = some m := by
    have key : ∀ l : List (Nat × Nat), (l.map (·.1)).Nodup → (0, m) ∈ l → l.lookup 0 = some m := by
      intro l
      induction l with
      | nil => intro _ h; cases h
      | cons x xs ih =>
        intro hn hm
        obtain ⟨i, n⟩ := x
        simp only [List.map_cons, List.nodup_cons, List.mem_map, not_exists, not_and] at hn
        rcases List.mem_cons.1 hm with hm | hm
        · cases hm; simp [List.lookup]
        · have : (0 : Nat) ≠ i := fun hc => hn.1 _ hm hc
          simp only [List.lookup]
          rw [show (0 == i) = false from by simpa using this]
          exact ih hn.2 hm
    exact key _ hd h0
  obtain ⟨hdd, hrr⟩ := hh r
  have hmem := hj r (by rw [hr]; exact hrr)
  refine ⟨⟨a.name, a.rank, host.peers, m, true⟩, if a.initDist then some r else none, ?_, ?_, rfl, hmem, rfl, rfl⟩
  · cases hi : a.initDist <;> simp [newWorld, fresh, hi, hrpc, join, hr, hdd, hrr, hl, Except.map]
  · cases hi : a.initDist <;> simp [newWorld, fresh, hi, hrpc, join, hr, hdd, hrr, hl, Except.map, curRank]

/-- There is only one world: a second construction raises RuntimeError and changes nothing. -/
theorem C203_once_partial (host : Host) (a : Args) (g : Global) (w : Obj) (h : g.world = some w) :
    newWorld host a g = (g, .error .runtime) := by
  simp [newWorld, h]

/-- Stopping twice raises RuntimeError; the world stays, so that no other one can be made in the process. -/
theorem C203_stop_partial (g g' : Global) (w : Obj) (hw : g.world = some w) (h : stop g = (g', .ok ())) :
    g'.world = some w ∧ stop g' = (g', .error .runtime) ∧ ∀ host a, newWorld host a g' = (g', .error .runtime) := by
  have hg : g' = { g with rpc := none } := by
    simp only [stop, hw] at h
    split at h
    · cases h
    · split at h
      · cases h
      · cases h; rw [hw]
  subst hg
  refine ⟨hw, ?_, fun host a => C203_once_partial host a _ w hw⟩
  simp only [stop, hw]
  split <;> rfl

theorem mem_insertNat (x y : Nat) (l : List Nat) : y ∈ insertNat x l ↔ y = x ∨ y ∈ l := by
  induction l with
  | nil => simp [insertNat]
  | cons z zs ih =>
    simp only [insertNat]
    split
    · simp
    · simp only [List.mem_cons, ih]
      constructor
      · rintro (h | h | h)
        · exact Or.inr (Or.inl h)
        · exact Or.inl h
        · exact Or.inr (Or.inr h)
      · rintro (h | h | h)
        · exact Or.inr (Or.inl h)
        · exact Or.inl h
        · exact Or.inr (Or.inr h)

theorem insertNat_sorted (x : Nat) (l : List Nat) (h : l.Pairwise (· ≤ ·)) : (insertNat x l).Pairwise (· ≤ ·) := by
  induction l with
  | nil => simp [insertNat]
  | cons z zs ih =>
    simp only [insertNat]
    rw [List.pairwise_cons] at h
    split
    · rename_i hle
      rw [List.pairwise_cons]
      refine ⟨?_, List.pairwise_cons.2 h⟩
      intro y hy
      rcases List.mem_cons.1 hy with rfl | hy
      · exact hle
      · exact Nat.le_trans hle (h.1 y hy)
    · rename_i hle
      rw [List.pairwise_cons]
      refine ⟨?_, ih h.2⟩
      intro y hy
      rcases (mem_insertNat x y zs).1 hy with rfl | hy
      · omega
      · exact h.1 y hy

theorem insertNat_perm (x : Nat) (l : List Nat) : (insertNat x l).Perm (x :: l) := by
  induction l with
  | nil => exact List.Perm.refl _
  | cons z zs ih =>
    simp only [insertNat]
    split
    · exact List.Perm.refl _
    · exact (List.Perm.cons z ih).trans (List.Perm.swap x z zs)

theorem sortNat_spec (l : List Nat) : (sortNat l).Perm l ∧ (sortNat l).Pairwise (· ≤ ·) := by
  induction l with
  | nil => exact ⟨List.Perm.refl _, List.Pairwise.nil⟩
  | cons x xs ih => exact ⟨(insertNat_perm x _).trans (ih.1.cons x), insertNat_sorted x _ ih.2⟩

/-- `get_ranks` and `get_members` list all processes in ascending order. -/
theorem C203_lists_partial (w : Obj) :
    (getRanks w).Perm (w.map.map (·.1)) ∧ (getRanks w).Pairwise (· ≤ ·) ∧
    (getMembers w).Perm (w.map.map (·.2)) ∧ (getMembers w).Pairwise (· ≤ ·) :=
  ⟨(sortNat_spec _).1, (sortNat_spec _).2, (sortNat_spec _).1, (sortNat_spec _).2⟩

/-- With given ranks 0, 1, … exactly the first processes are learners. -/
theorem C203_learners_partial (worlds : Nat → Obj) (size n : Nat) (h : ∀ i, (worlds i).rank = (i : Int)) :
    (List.range size).filter (fun i => isLearner (worlds i) n) = List.range (min n size) := by
  have : ∀ i, isLearner (worlds i) n = decide (i < n) := by
    intro i
    rw [isLearner, h]
    by_cases hi : i < n
    · simp [hi]
    · simp only [hi, decide_false]
      simp
      omega
  simp only [this]
  induction size with
  | zero => simp
  | succ k ih =>
    rw [List.range_succ, List.filter_append, ih]
    by_cases hk : k < n
    · have e1 : min n k = k := by omega
      have e2 : min n (k + 1) = k + 1 := by omega
      rw [e1, e2, List.range_succ]
      simp [hk]
    · have e1 : min n k = n := by omega
      have e2 : min n (k + 1) = n := by omega
      rw [e1, e2]
      simp [hk]

example : (newWorld envHost { name := 11, rank := 1 } fresh).2 = .ok () ∧
    curRank (newWorld envHost { name := 11, rank := 1 } fresh).1 = .ok 1 ∧
    (newWorld envHost { name := 11, rank := 1 } fresh).1.world.map getMembers = some [10, 11] ∧
    (stop (newWorld envHost { name := 11, rank := 1 } fresh).1).2 = .ok () := by decide

/-! ### C204 -/

variable {P K V : Type} [DecidableEq P] [DecidableEq K]

/-- The state after a sequence of calls on the groups of the processes. -/
def after (s : State P K V) : List (Op P K V) → State P K V
  | [] => s
  | o :: os => after (impStep s o).1 os

theorem after_rep (s : State P K V) (m : Table P K V) (h : Rep s m) (ops : List (Op P K V)) : ∃ m', Rep (after s ops) m' := by
  induction ops generalizing s m with
  | nil => exact ⟨m, h⟩
  | cons o os ih => exact ih _ _ (h.step o).1

/-- The whole property: a group object that was sent to a member can be used there like the group itself: a value that is paired through it
can be read by every member, a key that the process has paired can be unpaired through it, and look-ups agree. -/
def C204_full : Prop :=
  ∀ (ops : List (Op Bool Nat Nat)) (p q : Bool) (kind : Kind) (k v : Nat),
    let s := after (init : State Bool Nat Nat) ops
    let c : Copy Bool Nat Nat := copied [false, true]
    (Copy.lookup s c q kind k).2 = (lookup s q kind k).2 ∧
    ((Copy.acquire s c p kind k v).2.2 = .ok () → (lookup (Copy.acquire s c p kind k v).1 q kind k).2 = .ok v) ∧
    ((release s p kind k).2 = .ok () → (Copy.release s c p kind k).2.2 = .ok ())

theorem C204_violated : ¬ C204_full := by
  intro h
  have := (h [] true false .value 5 7).2.1 rfl
  revert this
  decide

/-- What is paired or registered through a copy is found by nobody, not even through the copy. -/
theorem C204_violated_pair (ops : List (Op P K V)) (members : List P) (p q : P) (kind : Kind) (k : K) (v : V)
    (hok : (Copy.acquire (after (init : State P K V) ops) (copied members) p kind k v).2.2 = .ok ()) :
    let r := Copy.acquire (after (init : State P K V) ops) (copied members) p kind k v
    (lookup r.1 q kind k).2 = .error .key ∧ (Copy.lookup r.1 r.2.1 p kind k).2 = .error .key := by
  obtain ⟨m, hm⟩ := after_rep (init : State P K V) _ Rep.init ops
  generalize after (init : State P K V) ops = s at *
  have hp : p ∈ members := by
    unfold Copy.acquire copied at hok
    by_cases hc : p ∈ members
    · exact hc
    · rw [if_neg hc] at hok; cases hok
  have hl := hm.lut kind k
  cases hmk : m kind k with
  | some e =>
    rw [hmk] at hl
    simp [Copy.acquire, copied, hp, setEntry, hl] at hok
  | none =>
    rw [hmk] at hl
    obtain ⟨locp, hgp, hlp⟩ := hm.loc p
    obtain ⟨locq, hgq, hlq⟩ := hm.loc q
    have h1 := hlp kind k
    have h2 := hlq kind k
    rw [hmk] at h1 h2
    simp only [Option.bind_none, Option.map_none] at h1 h2 hl
    simp [Copy.acquire, copied, hp, setEntry, hl, Copy.lookup, lookup, resolve, serve, hgp, hgq, h1, h2, upd2_same]

/-- A key that the process has paired itself cannot be unpaired through a copy. -/
theorem C204_violated_unpair (s : State P K V) (members : List P) (p : P) (kind : Kind) (k : K) :
    ∃ e, Copy.release s (copied members) p kind k = (s, copied members, .error e) := by
  unfold Copy.release copied
  split
  · exact ⟨_, rfl⟩
  · exact ⟨_, rfl⟩

/-- Look-ups through a copy give what look-ups through the group give, in every member. -/
theorem C204_lookup_partial (ops : List (Op P K V)) (members : List P) (q : P) (kind : Kind) (k : K) :
    Copy.lookup (after (init : State P K V) ops) (copied members) q kind k = lookup (after (init : State P K V) ops) q kind k := by
  obtain ⟨m, hm⟩ := after_rep (init : State P K V) _ Rep.init ops
  generalize after (init : State P K V) ops = s at *
  obtain ⟨locq, hgq, hlq⟩ := hm.loc q
  have hl := hm.lut kind k
  have h2 := hlq kind k
  unfold Copy.lookup lookup resolve copied
  cases hmk : m kind k with
  | none =>
    rw [hmk] at hl h2
    simp only [Option.bind_none, Option.map_none] at hl h2
    simp [hgq, h2, hl]
  | some e =>
    rw [hmk] at hl h2
    simp only [Option.bind_some, Option.map_some] at hl h2
    by_cases he : e.1 = q
    · rw [if_pos he] at h2
      simp [hgq, h2, hl, he]
    · rw [if_neg he] at h2
      simp [hgq, h2, hl]

/-- Taking and releasing through one copy leaves everything as it was. -/
theorem C204_undo_partial (s : State P K V) (c : Copy P K V) (p : P) (kind : Kind) (k : K) (v : V)
    (hok : (Copy.acquire s c p kind k v).2.2 = .ok ()) :
    ∃ s' c', Copy.release (Copy.acquire s c p kind k v).1 (Copy.acquire s c p kind k v).2.1 p kind k = (s', c', .ok ()) ∧
      s'.groups = s.groups ∧ s'.phase = s.phase ∧ (∀ kd x, s'.lut kd x = s.lut kd x) ∧ (∀ kd x, c'.loc kd x = c.loc kd x) := by
  unfold Copy.acquire at *
  by_cases hc : p ∈ c.members
  · rw [if_pos hc] at *
    cases hl : c.loc kind k with
    | some x => simp [hl] at hok
    | none =>
      cases hs : s.lut kind k with
      | some x => simp [hl, setEntry, hs] at hok
      | none =>
        simp only [setEntry, hs, Copy.release, hc, if_true, upd2_same, unsetEntry]
        refine ⟨_, _, rfl, rfl, rfl, ?_, ?_⟩
        · intro kd x
          simp only [upd2_apply]
          split
          · rename_i h; rw [h.1, h.2, hs]
          · rfl
        · intro kd x
          simp only [upd2_apply]
          split
          · rename_i h; rw [h.1, h.2, hl]
          · rfl
  · rw [if_neg hc] at hok
    cases hok

/-- A process that is not a member can take or release nothing through a copy. -/
theorem C204_outside_partial (s : State P K V) (c : Copy P K V) (p : P) (hp : p ∉ c.members) (kind : Kind) (k : K) (v : V) :
    Copy.acquire s c p kind k v = (s, c, .error .runtime) ∧ Copy.release s c p kind k = (s, c, .error .runtime) := by
  simp [Copy.acquire, Copy.release, hp]

/-- A call runs the function in the named member and nowhere else; its result is returned, its exception arrives as RpcException; a
target outside the group is a RuntimeError and nothing is run. -/
theorem C204_call_partial {W R E : Type} (members : List P) (ws : P → W) (to : P) (f : W → W × Except E R) :
    (to ∈ members → (normalCall members ws to f).1 to = (f (ws to)).1 ∧ (∀ q, q ≠ to → (normalCall members ws to f).1 q = ws q) ∧
      (∀ r, (normalCall members ws to f).2 = .value r ↔ (f (ws to)).2 = .ok r) ∧
      (∀ e, (normalCall members ws to f).2 = .rpcException e ↔ (f (ws to)).2 = .error e)) ∧
    (to ∉ members → normalCall members ws to f = (ws, .raised .runtime)) := by
  constructor
  · intro h
    cases hf : f (ws to) with
    | mk w' r =>
      cases r with
      | ok r => simp [normalCall, h, callFunc, hf, upd]; intro q hq; exact fun hc => absurd hc hq
      | error e => simp [normalCall, h, callFunc, hf, upd]; intro q hq; exact fun hc => absurd hc hq
  · intro h
    simp [normalCall, h]

/-- A caller can tell a missing service from a service that raised: KeyError arrives bare exactly if the service is not there. -/
theorem C204_service_partial {R E : Type} (s : State P K V) (h : P) (k : K) (f : V → Except E R) :
    ((callService s h k f).2 = .raised .key ↔ ∀ loc, s.groups h = some loc → loc .service k = none) ∧
    (∀ e, (callService s h k f).2 = .rpcException e ↔ ∃ loc v, s.groups h = some loc ∧ loc .service k = some v ∧ f v = .error e) ∧
    (∀ r, (callService s h k f).2 = .value r ↔ ∃ loc v, s.groups h = some loc ∧ loc .service k = some v ∧ f v = .ok r) := by
  unfold callService serve
  cases hg : s.groups h with
  | none => simp
  | some loc =>
    cases hl : loc .service k with
    | none => simp [hl]
    | some v => cases hf : f v <;> simp [hl, hf]

example : (Copy.acquire (after (init : State Bool Nat Nat) [.acquire false .value 1 2]) (copied [false, true]) true .value 5 7).2.2 = .ok () := by
  decide

example : (normalCall [0, 1] (fun p : Nat => p) 1 (fun w => (w + 10, (.ok w : Except Nat Nat)))).2 = .value 1 ∧
    (normalCall [0, 1] (fun p : Nat => p) 1 (fun w => (w + 10, (.error 3 : Except Nat Nat)))).2 = .rpcException 3 := by decide

end Machin.World
