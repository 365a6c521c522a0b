import Verif.World.Model

/-! # Specification of the group tables -/

namespace Machin.World.Spec

variable {P K V : Type} [DecidableEq P] [DecidableEq K]

/-- Steps of the processes, at the granularity of manager calls: the two parts of acquiring and releasing calls, and look-ups
(resolved and served at once). -/
inductive Step (P K V : Type)
  | beginAcquire (p : P) (kind : Kind) (k : K) (v : V)
  | beginRelease (p : P) (kind : Kind) (k : K)
  | finish (p : P)
  | lookup (q : P) (kind : Kind) (k : K)

/-- A process starts a call only when its thread is idle. -/
def step (s : State P K V) [DecidableEq V] : Step P K V → State P K V
  | .beginAcquire p kind k v => if s.phase p = .idle then (World.beginAcquire s p kind k v).1 else s
  | .beginRelease p kind k => if s.phase p = .idle then (World.beginRelease s p kind k).1 else s
  | .finish p => World.finish s p
  | .lookup q kind k => (World.lookup s q kind k).1

/-- All processes are members of the group, nothing is paired or registered. -/
def init : State P K V := ⟨fun _ _ => none, fun _ => some (fun _ _ => none), fun _ => .idle⟩

/-- `p` holds the key: it is in its local table and it is not being released. -/
def Holds (s : State P K V) (p : P) (kind : Kind) (k : K) : Prop :=
  (∃ loc v, s.groups p = some loc ∧ loc kind k = some v) ∧ s.phase p ≠ .releasing kind k

/-- The states reachable when no look-up is sent to a process that is in the middle of a call. -/
inductive QuietReach [DecidableEq V] : State P K V → Prop
  | init : QuietReach init
  | step {s : State P K V} (st : Step P K V) : QuietReach s →
      (∀ q kind k, st = .lookup q kind k → ∀ h, resolve s q kind k = some h → s.phase h = .idle) →
      QuietReach (step s st)

/-- All reachable states. -/
inductive Reach [DecidableEq V] : State P K V → Prop
  | init : Reach init
  | step {s : State P K V} (st : Step P K V) : Reach s → Reach (step s st)

/-! ### The abstract group: one table of owners and values -/

/-- A call and who makes it. -/
inductive Op (P K V : Type)
  | acquire (p : P) (kind : Kind) (k : K) (v : V)
  | release (p : P) (kind : Kind) (k : K)
  | get (q : P) (kind : Kind) (k : K)

/-- The abstract table. -/
abbrev Table (P K V : Type) := Kind → K → Option (P × V)

/-- What a call should do and answer (`none` for the calls without a result). -/
def absStep (m : Table P K V) : Op P K V → Table P K V × Except Err (Option V)
  | .acquire p kind k v =>
    match m kind k with
    | none => (upd2 m kind k (some (p, v)), .ok none)
    | some _ => (m, .error .key)
  | .release p kind k =>
    match m kind k with
    | some (q, _) => if q = p then (upd2 m kind k none, .ok none) else (m, .error .key)
    | none => (m, .error .key)
  | .get _ kind k =>
    match m kind k with
    | some (_, v) => (m, .ok (some v))
    | none => (m, .error .key)

/-- The answers of the abstract group to a sequence of calls. -/
def absRun (m : Table P K V) : List (Op P K V) → List (Except Err (Option V))
  | [] => []
  | o :: os => (absStep m o).2 :: absRun (absStep m o).1 os

/-- What the modelled code does and answers. -/
def impStep (s : State P K V) : Op P K V → State P K V × Except Err (Option V)
  | .acquire p kind k v => ((acquire s p kind k v).1, (acquire s p kind k v).2.map (fun _ => none))
  | .release p kind k => ((release s p kind k).1, (release s p kind k).2.map (fun _ => none))
  | .get q kind k => ((lookup s q kind k).1, (lookup s q kind k).2.map some)

/-- The answers of the modelled code. -/
def impRun (s : State P K V) : List (Op P K V) → List (Except Err (Option V))
  | [] => []
  | o :: os => (impStep s o).2 :: impRun (impStep s o).1 os

end Machin.World.Spec
