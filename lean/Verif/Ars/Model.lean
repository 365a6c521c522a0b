import Verif.Base.Err
import Mathlib.Algebra.Order.Field.Rat

/-!
# Model of ARS: running statistics, state filters, distribution of rollouts, shared noise

`machin/frame/algorithms/ars.py`. Tensors are handled elementwise by this code, so one component is modelled. Numbers are
exact rationals; `none` stands for `nan`.
-/

namespace Machin.Ars

/-- Arithmetic with `nan`. -/
def lift2 (f : ℚ → ℚ → ℚ) : Option ℚ → Option ℚ → Option ℚ
  | some a, some b => some (f a b)
  | _, _ => none

/-- `RunningStat` (ars.py:24-47). -/
structure Stat where
  n : Nat
  M : Option ℚ
  S : Option ℚ
  deriving DecidableEq

/-- `RunningStat.__init__` (ars.py:30-46). -/
def Stat.new : Stat := ⟨0, some 0, some 0⟩

/-- `RunningStat.push` (ars.py:58-75). -/
def Stat.push (s : Stat) (x : ℚ) : Stat :=
  let nOld := s.n
  let n := s.n + 1
  if n = 1 then { s with n := n, M := some x }
  else
    let delta := s.M.map (x - ·)
    { n := n
      M := lift2 (fun m d => m + d / n) s.M delta
      S := lift2 (fun v d => v + d * d * nOld / n) s.S delta }

/-- `RunningStat.update` (ars.py:77-100): dividing a tensor by 0 gives `nan` here, since the numerators are 0. -/
def Stat.update (s o : Stat) : Stat :=
  let n1 := s.n
  let n2 := o.n
  let n := n1 + n2
  if n = 0 then ⟨0, none, none⟩
  else
    let delta2 := lift2 (fun a b => (a - b) * (a - b)) s.M o.M
    { n := n
      M := lift2 (fun a b => (n1 * a + n2 * b) / n) s.M o.M
      S := lift2 (fun ab d => ab + d * n1 * n2 / n) (lift2 (· + ·) s.S o.S) delta2 }

/-- `RunningStat.var` (ars.py:116-121). -/
def Stat.var (s : Stat) : Option ℚ :=
  if s.n > 1 then s.S.map (· / ((s.n : ℚ) - 1)) else s.M.map fun m => m * m

/-- The tensor used as the mean by a filter: one of its own, or the very tensor `rs._M`, which `push` changes in place. -/
inductive MeanRef
  | own (v : Option ℚ)
  | shared
  deriving DecidableEq

/-- `MeanStdFilter` (ars.py:132-162). -/
structure Filter where
  rs : Stat
  rsLocal : Stat
  mean : MeanRef
  std : Option ℚ
  deriving DecidableEq

/-- `MeanStdFilter.__init__` (ars.py:135-158). -/
def Filter.new : Filter := ⟨Stat.new, Stat.new, .own (some 0), some 1⟩

/-- `self.mean` as seen by `filter` (ars.py:234). -/
def Filter.meanValue (f : Filter) : Option ℚ :=
  match f.mean with
  | .own v => v
  | .shared => f.rs.M

/-- After `rs._M` (or `rs`) is bound to a new tensor, `mean` still is the old tensor. -/
def Filter.detach (f : Filter) : Filter := { f with mean := .own f.meanValue }

/-- `clear_local` (ars.py:160-162). -/
def Filter.clearLocal (f : Filter) : Filter := { f with rsLocal := Stat.new }

/-- `collect` (ars.py:173-183): `RunningStat.update` binds `_M` to a new tensor. -/
def Filter.collect (f other : Filter) : Filter :=
  let f := f.detach
  { f with rs := f.rs.update other.rsLocal }

/-- `sync` (ars.py:185-197). -/
def Filter.sync (f other : Filter) : Filter :=
  let f := f.detach
  { f with rs := other.rs, rsLocal := other.rsLocal }

/-- `apply_stats` (ars.py:199-210). `sq` stands for the square root followed by the replacement of small values by
infinity; it is a new tensor. -/
def Filter.applyStats (sq : Option ℚ → Option ℚ) (f : Filter) : Filter := { f with mean := .shared, std := sq f.rs.var }

/-- The update part of `filter` (ars.py:231-233), with `update=True` as `act` calls it. The normalised value is then
computed from `meanValue` and `std`. -/
def Filter.observe (f : Filter) (x : ℚ) : Filter := { f with rs := f.rs.push x, rsLocal := f.rsLocal.push x }

/-! ### One state key in all members of the group

`self.filter` restricted to one key: `none` if the key is missing. Member 0 is the manager. -/

/-- `act` on the state value `x` (ars.py:458-468): the filter is made on first use. -/
def act (f : Option Filter) (x : ℚ) : Option Filter := some ((f.getD Filter.new).observe x)

/-- The inner loop of the manager (ars.py:580-581). -/
def collectAll (f : Filter) : List (Option Filter) → Except Err Filter
  | [] => .ok f
  | none :: _ => .error .key
  | some g :: gs => collectAll (f.collect g) gs

/-- The manager's part of `update` for the key (ars.py:572-583): all members' filters, its own included. -/
def managerCollect (sq : Option ℚ → Option ℚ) (members : List (Option Filter)) : Except Err (Option Filter) :=
  match members with
  | [] => .error .index
  | none :: _ => .ok none
  | some f :: _ =>
    match collectAll f members with
    | .error e => .error e
    | .ok f => .ok (some (f.applyStats sq).clearLocal)

/-- `_sync_filter` of a worker for the key (ars.py:647-651). -/
def workerSync (sq : Option ℚ → Option ℚ) (manager worker : Option Filter) : Except Err (Option Filter) :=
  match worker with
  | none => .ok none
  | some f =>
    match manager with
    | none => .error .key
    | some m => .ok (some ((f.sync m).applyStats sq))

/-- All workers, one after the other (they are independent). -/
def syncAll (sq : Option ℚ → Option ℚ) (manager : Option Filter) : List (Option Filter) → Except Err (List (Option Filter))
  | [] => .ok []
  | w :: ws =>
    match workerSync sq manager w with
    | .error e => .error e
    | .ok w =>
      match syncAll sq manager ws with
      | .error e => .error e
      | .ok ws => .ok (w :: ws)

/-- The filters of all members after everyone's `update()` (ars.py:504-601). -/
def updateFilters (sq : Option ℚ → Option ℚ) (members : List (Option Filter)) : Except Err (List (Option Filter)) :=
  match managerCollect sq members with
  | .error e => .error e
  | .ok m =>
    match syncAll sq m members.tail with
    | .error e => .error e
    | .ok ws => .ok (m :: ws)

/-- One round: every member acts on its observations, then everyone calls `update()`. -/
def round (sq : Option ℚ → Option ℚ) (members : List (Option Filter)) (obs : List (List ℚ)) :
    Except Err (List (Option Filter)) :=
  updateFilters sq (members.zipWith (fun f xs => xs.foldl act f) obs)

/-- Several rounds. -/
def rounds (sq : Option ℚ → Option ℚ) (members : List (Option Filter)) : List (List (List ℚ)) → Except Err (List (Option Filter))
  | [] => .ok members
  | obs :: rest =>
    match round sq members obs with
    | .error e => .error e
    | .ok members => rounds sq members rest

/-! ### Rollouts and noise -/

/-- `segment_length` (ars.py:336): `int(np.ceil(rollout_num / w_num))`; the quotient is exact here. -/
def segmentLength (rolloutNum wNum : Nat) : Nat := (rolloutNum + wNum - 1) / wNum

/-- `local_rollout_min` (ars.py:337). -/
def localMin (rolloutNum wNum w : Nat) : Nat := w * segmentLength rolloutNum wNum

/-- `local_rollout_num` (ars.py:338-340), which may be negative. -/
def localNum (rolloutNum wNum w : Nat) : Int :=
  min (segmentLength rolloutNum wNum : Int) ((rolloutNum : Int) - localMin rolloutNum wNum w)

/-- The rollout indexes of worker `w` (ars.py:400-401, 611, 670-671, 679-680): `range` of a negative number is empty. -/
def localRollouts (rolloutNum wNum w : Nat) : List Nat :=
  (List.range (localNum rolloutNum wNum w).toNat).map (· + localMin rolloutNum wNum w)

/-- The seed of the sampler of parameter `p` in rollout `r` (ars.py:399, 403-408). -/
def samplerSeed (sampleSeed paramNum r p : Nat) : Nat := sampleSeed + r * paramNum + p

/-- The size check (ars.py:375-388): `none` if it passes, with or without a warning. -/
def sizeCheck (paramMax noiseSize : Nat) : Option Err :=
  if paramMax * 10 > noiseSize then none
  else if paramMax ≥ noiseSize then some .value
  else none

/-- `rg.randint(0, high)` (ars.py:267): a draw below `high`, `ValueError` if `high ≤ 0`. -/
def randint (draw : Nat → Nat) (high : Int) : Except Err Nat :=
  if high ≤ 0 then .error .value else .ok (draw high.toNat)

/-- `SharedNoiseSampler.sample` (ars.py:259-268). -/
def sample {α : Type} (noise : List α) (draw : Nat → Nat) (size : Nat) : Except Err (Nat × List α) :=
  match randint draw ((noise.length : Int) - size + 1) with
  | .error e => .error e
  | .ok idx => .ok (idx, (noise.drop idx).take size)

/-- `SharedNoiseSampler.get` (ars.py:256-257). -/
def get {α : Type} (noise : List α) (idx size : Nat) : List α := (noise.drop idx).take size

end Machin.Ars
