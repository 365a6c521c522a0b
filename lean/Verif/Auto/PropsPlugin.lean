import Verif.Auto.Plugin
import Std.Data.String.ToNat

/-!
# C209: the launchers join the world of pytorch lightning
-/

namespace Machin.Auto

/-- C209, full statement: the world gets the rank and the size that were given, or those of the cluster where none were given. -/
def C209_full : Prop :=
  ∀ (c : Cluster) (rank size : Option Nat) (addr port : Nat) (n : Nat), c.addr = some addr → c.port = some port →
    (size.or c.size) = some n →
    initConnection c rank size (fun _ => .ok ()) none =
      (some ⟨toString (rank.getD c.rank), rank.getD c.rank, n, (addr, port), (addr, port + 1)⟩, .ok ())

/-- The given size is never used. -/
theorem C209_violated_size (c : Cluster) (rank size size' : Option Nat) (construct : WorldArgs → Except Err Unit) (world : Option WorldArgs) :
    initConnection c rank size construct world = initConnection c rank size' construct world := rfl

theorem C209_violated : ¬ C209_full := by
  intro h
  have := h ⟨some 1, some 2, some 5, 0⟩ (some 0) (some 3) 1 2 3 rfl rfl rfl
  revert this
  decide

/-- With the size of the cluster: an exact description. The assertion is raised exactly if the cluster lacks an entry; an existing world is kept. -/
theorem C209_connect_partial (c : Cluster) (rank size : Option Nat) (construct : WorldArgs → Except Err Unit) :
    (∀ addr port n, c.addr = some addr → c.port = some port → c.size = some n →
      (∀ w, initConnection c rank size construct (some w) = (some w, .ok ())) ∧
      let args : WorldArgs := ⟨toString (rank.getD c.rank), rank.getD c.rank, n, (addr, port), (addr, port + 1)⟩
      (construct args = .ok () → initConnection c rank size construct none = (some args, .ok ())) ∧
      ∀ e, construct args = .error e → initConnection c rank size construct none = (none, .error e)) ∧
    ((c.addr = none ∨ c.port = none ∨ c.size = none) → ∀ w, initConnection c rank size construct w = (w, .error .assertion)) := by
  constructor
  · intro addr port n h1 h2 h3
    refine ⟨fun w => by simp [initConnection, h1, h2, h3], fun h => by simp only [initConnection, h1, h2, h3, h], fun e h => by simp only [initConnection, h1, h2, h3, h]⟩
  · intro h w
    unfold initConnection
    cases h1 : c.addr <;> cases h2 : c.port <;> cases h3 : c.size <;> simp_all

/-- Processes of one cluster with different ranks meet at the same two addresses, which differ, and have different names. -/
theorem C209_consistent_partial (c c' : Cluster) (size size' : Option Nat) (ok : WorldArgs → Except Err Unit) (a b : WorldArgs)
    (h1 : c'.addr = c.addr) (h2 : c'.port = c.port) (h3 : c'.size = c.size) (hr : c.rank ≠ c'.rank)
    (ha : initConnection c none size ok none = (some a, .ok ())) (hb : initConnection c' none size' ok none = (some b, .ok ())) :
    a.distAt = b.distAt ∧ a.rpcAt = b.rpcAt ∧ a.size = b.size ∧ a.rank ≠ b.rank ∧ a.name ≠ b.name ∧ a.distAt ≠ a.rpcAt := by
  have key : ∀ (c : Cluster) (s : Option Nat) (w : WorldArgs), initConnection c none s ok none = (some w, .ok ()) →
      ∃ addr port n, c.addr = some addr ∧ c.port = some port ∧ c.size = some n ∧ w = ⟨toString c.rank, c.rank, n, (addr, port), (addr, port + 1)⟩ := by
    intro c s w h
    unfold initConnection at h
    cases h1 : c.addr with
    | none => simp [h1] at h
    | some addr =>
      cases h2 : c.port with
      | none => simp [h1, h2] at h
      | some port =>
        cases h3 : c.size with
        | none => simp [h1, h2, h3] at h
        | some n =>
          simp only [h1, h2, h3] at h
          split at h
          · simp at h
          · exact ⟨addr, port, n, rfl, rfl, rfl, by simpa using h.symm⟩
  obtain ⟨a1, p1, n1, k1, k2, k3, rfl⟩ := key c size a ha
  obtain ⟨a2, p2, n2, l1, l2, l3, rfl⟩ := key c' size' b hb
  rw [h1, k1] at l1
  rw [h2, k2] at l2
  rw [h3, k3] at l3
  cases l1; cases l2; cases l3
  refine ⟨rfl, rfl, rfl, hr, ?_, ?_⟩
  · intro he
    exact hr (Nat.repr_injective he)
  · intro he
    have := congrArg Prod.snd he
    simp at this

/-- A local framework refuses a ddp trainer, and a distributed one refuses any trainer without the patched plugins, as often as it is tried; nothing is
changed. Otherwise training starts, and the optimizers of the trainer are taken over once, as a list. -/
theorem C209_launch_partial {Opt : Type} (n : Nat) (o b : Bool) (l : List Opt) (opts : Opts Opt) (plugin : TrainingPlugin) (useDdp : Bool) :
    hooks (initLocal useDdp opts) (n + 1) ⟨false, b, l⟩ =
      (if useDdp then (⟨false, b, l⟩, .error .runtime) else (⟨true, true, match opts with | .list l => l | .single o => [o]⟩, .ok ())) ∧
    hooks (initDistributed useDdp plugin) (n + 1) (⟨false, b, l⟩ : PlState Opt) =
      (if useDdp = true ∧ plugin ≠ .other then (⟨true, b, l⟩, .ok ()) else (⟨false, b, l⟩, .error .runtime)) ∧
    (initLocal o opts ⟨true, b, l⟩ = (⟨true, b, l⟩, .ok ())) := by
  have again1 : ∀ k (s : PlState Opt), s.inited = true → hooks (initLocal useDdp opts) k s = (s, .ok ()) := by
    intro k
    induction k with
    | zero => intro s _; rfl
    | succ k ih => intro s hs; simp [hooks, initLocal, hs, ih]
  have again2 : ∀ k (s : PlState Opt), s.inited = true → hooks (initDistributed useDdp plugin) k s = (s, .ok ()) := by
    intro k
    induction k with
    | zero => intro s _; rfl
    | succ k ih => intro s hs; simp [hooks, initDistributed, hs, ih]
  refine ⟨?_, ?_, by simp [initLocal]⟩
  · cases useDdp with
    | true => simp [hooks, initLocal]
    | false => cases opts <;> simp [hooks, initLocal, again1]
  · cases useDdp with
    | false => simp [hooks, initDistributed]
    | true => cases plugin <;> simp [hooks, initDistributed, again2]

/-- Process 3 of 5 joins at port 100 and 101. -/
example : initConnection ⟨some 7, some 100, some 5, 3⟩ none none (fun _ => .ok ()) none = (some ⟨"3", 3, 5, (7, 100), (7, 101)⟩, .ok ()) := by decide

end Machin.Auto
